import Verif.Props.BlockNetwork
import Verif.Props.View
import Verif.Props.Identity
import Verif.Props.BTensor
/-
The edges that `contract` and `generate_env` make for block chains.
-/
set_option linter.unusedSectionVars false
namespace QuantiT.BN
open Spec BT Finset
variable {G R : Type} [AddCommGroup G] [DecidableEq G]

theorem picks3 {s : Shape G} (hk : s.length = 3) (hp : ∀ d ∈ s, 0 < dimSize d) :
    Picks s [-1, 0, 0] ∧ Picks s [0, 0, -1] := by
  rcases s with _ | ⟨a, _ | ⟨b, _ | ⟨c, _ | ⟨d, s⟩⟩⟩⟩ <;> simp at hk
  have h1 := hp a (by simp)
  have h2 := hp b (by simp)
  have h3 := hp c (by simp)
  constructor
  · exact .cons (.inl rfl) (.cons (.inr ⟨le_rfl, by exact_mod_cast h2⟩) (.cons (.inr ⟨le_rfl, by exact_mod_cast h3⟩) .nil))
  · exact .cons (.inr ⟨le_rfl, by exact_mod_cast h1⟩) (.cons (.inr ⟨le_rfl, by exact_mod_cast h2⟩) (.cons (.inl rfl) .nil))

theorem populated_of_pos {s : Shape G} (hp : ∀ d ∈ s, 0 < dimSize d) : Populated s := by
  intro d hd hn
  have := hp d hd
  rw [hn] at this
  simp [dimSize] at this

theorem allowed_diag {d : Dim G} {q : G} {i : Nat} (hi : i < d.length) : Allowed [flipped d, d] q [i, i] ↔ q = 0 := by
  have e1 : d[i]? = some d[i] := List.getElem?_eq_getElem hi
  have e2 : (flipped d)[i]? = some (d[i].1, -d[i].2) := by rw [flipped_getElem?, e1]; rfl
  have e3 : sections [flipped d, d] [i, i] = some [(d[i].1, -d[i].2), d[i]] :=
    sections_cons.mpr ⟨_, _, e2, sections_cons.mpr ⟨_, _, e1, rfl, rfl⟩, rfl⟩
  constructor
  · rintro ⟨secs, h1, h2⟩
    rw [e3] at h1; cases h1
    rw [← h2]; simp [charge]
  · rintro rfl
    exact ⟨_, e3, by simp [charge]⟩

theorem eyeLike_rule [Zero R] [One R] (d : Dim G) (q : G) :
    ∃ r : BT G R, eyeLike ⟨[flipped d, d], q, []⟩ = .ok r ∧ r.shape = [flipped d, d] ∧ r.rule = q ∧
      Conserving r.shape r.rule r.blocks ∧
      ∀ x y, x < dimSize d → y < dimSize d → entry r.shape r.blocks [x, y] = if x = y ∧ q = 0 then 1 else 0 := by
  obtain ⟨r, h1, h2, h3, h4, h5, h6, h7⟩ := C33_eye_like (R := R) ⟨[flipped d, d], q, []⟩ (flipped d) d rfl
  refine ⟨r, h1, h2, h3, h4, fun x y hx hy => ?_⟩
  obtain ⟨⟨p1, p2⟩, hp⟩ := locate_isSome.mpr hx
  obtain ⟨⟨q1, q2⟩, hq⟩ := locate_isSome.mpr hy
  rw [h7 x y _ _ ((locate_flipped d x).trans hp) hq]
  obtain ⟨s, g1, g2, g3⟩ := locate_iff.mp hp
  obtain ⟨s', g1', g2', g3'⟩ := locate_iff.mp hq
  have hi : p1 < d.length := (List.getElem?_eq_some_iff.mp g1).1
  refine if_congr ?_ rfl rfl
  simp only [allowed_diag hi]
  constructor
  · rintro ⟨e1, e2, e3⟩
    subst e1 e2
    exact ⟨by omega, e3⟩
  · rintro ⟨rfl, e3⟩
    rw [hp] at hq; cases hq
    exact ⟨rfl, rfl, e3⟩

theorem eyeEdge_eq [Zero R] [One R] (x y : BT G R) (inds : List Int) (d : Dim G) (hx : Picks x.shape inds) (hy : Picks y.shape inds)
    (px : Populated x.shape) (py : Populated y.shape) (kx : kept x.shape inds = [d]) (ky : kept y.shape inds = [d]) :
    ∃ r : BT G R, eyeEdge x y inds = .ok r ∧ r.shape = [flipped d, d] ∧ r.rule = endRule y inds - endRule x inds ∧
      Conserving r.shape r.rule r.blocks ∧
      ∀ i j, i < dimSize d → j < dimSize d →
        entry r.shape r.blocks [i, j] = if i = j ∧ endRule x inds = endRule y inds then 1 else 0 := by
  obtain ⟨r, h1, h2, h3, h4, h5⟩ := eyeLike_rule (R := R) d (endRule y inds - endRule x inds)
  refine ⟨r, ?_, h2, h3, h4, fun i j hi hj => ?_⟩
  · rw [eyeEdge, C31_shape_from_partial x inds hx px, C31_shape_from_partial y inds hy py]
    simp only [bind, Except.bind]
    rw [C32_shape_from_list _ (by simp)]
    simp only [inverseCvals, kx, ky, List.map_cons, List.map_nil, List.flatten_cons, List.flatten_nil, List.sum_cons,
      List.sum_nil, List.append_nil, List.cons_append, List.nil_append, add_zero]
    rw [← h1]
    congr 2
    simp only [endRule]; abel
  · rw [h5 i j hi hj]
    refine if_congr (and_congr_right fun _ => ?_) rfl rfl
    rw [sub_eq_zero]; exact eq_comm

theorem kept3 {s : Shape G} (hk : s.length = 3) : kept s [-1, 0, 0] = [s.getD 0 []] ∧ kept s [0, 0, -1] = [s.getD 2 []] := by
  rcases s with _ | ⟨a, _ | ⟨b, _ | ⟨c, _ | ⟨d, s⟩⟩⟩⟩ <;> simp at hk
  exact ⟨rfl, rfl⟩

/-! ### Ones -/

theorem fillLoop_mono [Zero R] (mk : List Nat → List Nat → Res (Option (Blk R))) : ∀ (n m : Nat), n ≤ m → ∀ (t : BT G R) idx r,
    fillLoop mk n t idx = some r → fillLoop mk m t idx = some r
  | 0, _, _, _, _, _, h => by simp [fillLoop] at h
  | n + 1, 0, hm, _, _, _, _ => by omega
  | n + 1, m + 1, hm, t, idx, r, h => by
    rw [fillLoop] at h ⊢
    cases hf : fillOnce mk t idx with
    | error e => rw [hf] at h; exact h
    | ok t' =>
      rw [hf] at h
      simp only at h ⊢
      by_cases hc : ((incr (secCounts t.shape) idx true).any fun x => decide (x ≠ 0)) = true
      · rw [if_pos hc] at h ⊢
        exact fillLoop_mono mk n m (by omega) _ _ _ h
      · rw [if_neg hc] at h ⊢
        exact h

theorem onesLike_eq [Zero R] [One R] (sh : Shape G) (q : G) (bl) (hp : Populated sh) :
    ∃ N, ∃ r : BT G R, (∀ fuel, N ≤ fuel → onesLike fuel (⟨sh, q, bl⟩ : BT G R) = some (.ok r)) ∧ r.shape = sh ∧ r.rule = q ∧
      Conserving r.shape r.rule r.blocks ∧
      ∀ e p, locateAll sh e = some p → (Allowed sh q p.1 → entry r.shape r.blocks e = 1) ∧
        (¬ Allowed sh q p.1 → entry r.shape r.blocks e = 0) := by
  obtain ⟨N, r, h1, h2, h3, h4, h5, h6⟩ := C15_factory_partial (R := R) sh q hp (fun _ _ _ => 1)
  have hb : ∀ k b, (k, b) ∈ r.blocks → ∃ secs, sections sh k = some secs ∧ charge secs = q ∧ b = ⟨secs.map Prod.fst, fun _ => 1⟩ := by
    intro k b hk
    have hl := (lookup_iff_mem h4).mpr hk
    by_cases ha : Allowed sh q k
    · obtain ⟨secs, g1, g2⟩ := ha
      rw [h5 k secs g1 g2] at hl
      cases hl
      exact ⟨secs, g1, g2, rfl⟩
    · rw [h6 k ha] at hl; cases hl
  refine ⟨N, r, fun fuel hf => fillLoop_mono _ N fuel hf _ _ _ h1, h2, h3, ⟨h4, ?_⟩, ?_⟩
  · intro k b hk
    obtain ⟨secs, g1, g2, rfl⟩ := hb k b hk
    exact ⟨secs, by rw [h2]; exact g1, by rw [h3]; exact g2, rfl⟩
  · intro e p he
    rw [h2]
    constructor
    · rintro ⟨secs, g1, g2⟩
      simp only [entry, he, h5 _ secs g1 g2]
    · intro ha
      simp only [entry, he, h6 _ ha]

theorem chargeAt_flipped (d : Dim G) (e : Nat) : chargeAt (flipped d) e = -chargeAt d e := by
  simp only [chargeAt, locate_flipped, flipped_getElem?]
  rcases locate d e with _ | p
  · simp
  · rcases hd : d[p.1]? with _ | s <;> simp [hd]

theorem edgeShape_eq [Zero R] (late : Bool) (t : BT G R) (dim : Nat) (hd : dim < t.shape.length) (hp : ∀ d ∈ t.shape, 0 < dimSize d) :
    edgeShape late t dim = .ok ⟨[flipped (t.shape.getD dim [])],
      if late then chargeAt (t.shape.getD dim []) 0 else -chargeAt (t.shape.getD dim []) 0, []⟩ := by
  have hpk : Picks t.shape ((List.replicate t.shape.length (0 : Int)).set dim (-1)) := by
    rw [Picks, List.forall₂_iff_get]
    refine ⟨by simp, fun i h1 h2 => ?_⟩
    simp only [List.get_eq_getElem, List.getElem_set, List.getElem_replicate]
    by_cases h : dim = i
    · left; simp [h]
    · right
      simp only [h, if_false]
      exact ⟨le_rfl, by exact_mod_cast hp _ (List.getElem_mem h1)⟩
  have hk : ∀ (s : Shape G) (dim : Nat), dim < s.length → kept s ((List.replicate s.length (0 : Int)).set dim (-1)) = [s.getD dim []] := by
    intro s
    induction s with
    | nil => intro dim h; simp at h
    | cons a s ih =>
      intro dim h
      rcases dim with _ | dim
      · have hz : ∀ s : Shape G, kept s (List.replicate s.length (0 : Int)) = [] := by
          intro s
          induction s with
          | nil => rfl
          | cons a s ih => simp [List.replicate_succ, kept, ih]
        simp [List.replicate_succ, kept, hz]
      · have := ih dim (by simpa using h)
        simp only [List.length_cons, List.replicate_succ, List.set_cons_succ, kept]
        rw [if_neg (by decide), this]
        simp
  have hpop := populated_of_pos hp
  obtain ⟨d, hdd⟩ : ∃ d, d = t.shape.getD dim [] := ⟨_, rfl⟩
  have hdpos : 0 < dimSize d := by
    rw [hdd, List.getD_eq_getElem _ _ hd]
    exact hp _ (List.getElem_mem hd)
  have hpos : ∀ e : Dim G, dimSize e = dimSize d → Picks [e] [0] ∧ Populated [e] := by
    intro e he
    have h0 : 0 < dimSize e := by omega
    exact ⟨.cons (.inr ⟨le_rfl, by exact_mod_cast h0⟩) .nil, populated_of_pos (by simpa using h0)⟩
  rw [edgeShape, if_pos hd, C31_shape_from_partial t _ hpk hpop, hk _ _ hd, ← hdd]
  simp only [bind, Except.bind, setRule, List.length_nil, ne_eq, not_true_eq_false, if_false]
  cases late
  · simp only [Bool.false_eq_true, if_false]
    rw [C31_shape_from_partial _ _ (hpos d rfl).1 (hpos d rfl).2]
    simp only
    rw [C32_shape_from_list _ (by simp)]
    simp [inverseCvals, kept, fixedCharge, flipped]
  · simp only [if_true, inverseCvals]
    have hf := hpos (flipped d) (dimSize_flipped d)
    have : (⟨List.map (List.map fun s => (s.1, -s.2)) [d], -0, []⟩ : BT G R) = ⟨[flipped d], -0, []⟩ := rfl
    rw [this, C31_shape_from_partial _ _ hf.1 hf.2]
    simp only
    rw [C32_shape_from_list _ (by simp)]
    simp [kept, fixedCharge, chargeAt_flipped]

theorem allowed_one {d : Dim G} {q : G} {w : Nat} {p : List Nat × List Nat} (hw : locateAll [flipped d] [w] = some p) :
    Allowed [flipped d] q p.1 ↔ -chargeAt d w = q := by
  rw [locateAll_cons] at hw
  obtain ⟨k, o, ks, os, h1, h2, rfl⟩ := hw
  cases h2
  rw [locate_flipped] at h1
  obtain ⟨s, g1, g2, g3⟩ := locate_iff.mp h1
  have hc : chargeAt d w = s.2 := by simp [chargeAt, h1, g1]
  have e2 : (flipped d)[k]? = some (s.1, -s.2) := by rw [flipped_getElem?, g1]; rfl
  have e3 : sections [flipped d] [k] = some [(s.1, -s.2)] := sections_cons.mpr ⟨_, _, e2, rfl, rfl⟩
  rw [hc]
  constructor
  · rintro ⟨secs, h1, h2⟩
    rw [e3] at h1; cases h1
    rw [← h2]; simp [charge]
  · intro h
    exact ⟨_, e3, by simp [charge, h]⟩

theorem inRange1 {w : Nat} {n : Nat} (h : w < n) : InRange [w] [n] := .cons h .nil
theorem inRange2 {l l' n n' : Nat} (h : l < n) (h' : l' < n') : InRange [l, l'] [n, n'] := .cons h (.cons h' .nil)
theorem inRange3 {l w l' n m n' : Nat} (h : l < n) (hw : w < m) (h' : l' < n') : InRange [l, w, l'] [n, m, n'] :=
  .cons h (.cons hw (.cons h' .nil))

theorem onesEdge_eq [Zero R] [One R] (late : Bool) (t : BT G R) (dim : Nat) (hd : dim < t.shape.length) (hp : ∀ d ∈ t.shape, 0 < dimSize d) :
    ∃ N sl r, edgeShape late t dim = .ok sl ∧ (∀ fuel, N ≤ fuel → onesLike fuel sl = some (.ok r)) ∧
      r.shape = [flipped (t.shape.getD dim [])] ∧
      r.rule = (if late then chargeAt (t.shape.getD dim []) 0 else -chargeAt (t.shape.getD dim []) 0) ∧
      Conserving r.shape r.rule r.blocks ∧
      ∀ w, w < dimSize (t.shape.getD dim []) →
        entry r.shape r.blocks [w] = if EdgeOk late (t.shape.getD dim []) w then 1 else 0 := by
  obtain ⟨d, hdd⟩ : ∃ d, d = t.shape.getD dim [] := ⟨_, rfl⟩
  have hdpos : 0 < dimSize d := by
    rw [hdd, List.getD_eq_getElem _ _ hd]
    exact hp _ (List.getElem_mem hd)
  have h0 := edgeShape_eq late t dim hd hp
  rw [← hdd] at h0 ⊢
  obtain ⟨N, r, h1, h2, h3, h4, h5⟩ := onesLike_eq (R := R) [flipped d] (if late then chargeAt d 0 else -chargeAt d 0) []
    (populated_of_pos (by simpa [dimSize_flipped] using hdpos))
  refine ⟨N, _, r, h0, h1, h2, h3, h4, fun w hw => ?_⟩
  obtain ⟨p, hl⟩ := locateAll_isSome.mpr (show InRange [w] ([flipped d].map dimSize) from inRange1 (by rw [dimSize_flipped]; exact hw))
  have := h5 [w] p hl
  rw [allowed_one hl] at this
  by_cases hc : EdgeOk late d w
  · rw [if_pos hc]
    refine this.1 ?_
    rw [EdgeOk] at hc
    cases late <;> simp_all
  · rw [if_neg hc]
    refine this.2 fun hq => hc ?_
    rw [EdgeOk]
    cases late
    · simpa using hq
    · simp only [if_true] at hq ⊢
      rw [← hq]; simp

/-- The product of a matrix and a vector, with the vector's dimension in the middle. -/
theorem outer3 [Semiring R] {L O : BT G R} (hL : Sound L) (hO : Sound O) {p q s : Dim G} (sL : L.shape = [p, q]) (sO : O.shape = [s]) :
    ∃ N t t', (∀ fuel, N ≤ fuel → tensordot fuel L O [] [] = some (.ok t)) ∧ permute t [0, 2, 1] = .ok t' ∧
      t'.shape = [p, s, q] ∧ t'.rule = L.rule + O.rule ∧ Sound t' ∧
      ∀ l w l', l < dimSize p → w < dimSize s → l' < dimSize q →
        entry t'.shape t'.blocks [l, w, l'] = entry L.shape L.blocks [l, l'] * entry O.shape O.blocks [w] := by
  have hnb : ∀ fuel, L.blocks.length + O.blocks.length ≤ fuel → ∃ r, tensordot fuel L O [] [] = some (.ok r) ∧ r.shape = [p, q] ++ [s] ∧
      r.rule = L.rule + O.rule ∧ Conserving r.shape r.rule r.blocks ∧
      ∀ ea eb, InRange ea ([p, q].map dimSize) → InRange eb ([s].map dimSize) →
        entry r.shape r.blocks (ea ++ eb) =
          ((indices (([] : Shape G).map dimSize)).map fun c =>
            entry L.shape L.blocks (place [] ea c) * entry O.shape O.blocks (place [] eb c)).sum := fun fuel hf =>
    C23_returns L O hL.1 hO.1 [] [] .nil .nil [p, q] [s] [] [] rfl rfl (by rw [sL]; rfl) (by rw [sO]; rfl) .nil hL.2 hO.2
      (.inr ⟨by simp [sL], .inr (by simp [sO])⟩) fuel hf
  obtain ⟨t, h1, h2, h3, h4, h5⟩ := hnb _ le_rfl
  obtain ⟨t', g1, g2, g3, g4, g5⟩ := C20_permute t h4 [0, 2, 1] [0, 2, 1] (by rw [h2]; exact (by decide : [0, 2, 1].Perm (List.range 3)))
    (by
      rw [h2]
      exact .cons ⟨by simp, .inl rfl⟩ (.cons ⟨by simp, .inl rfl⟩ (.cons ⟨by simp, .inl rfl⟩ .nil)))
  have es : t'.shape = [p, s, q] := by
    rw [h2] at g2
    exact (Option.some.inj g2).symm
  refine ⟨L.blocks.length + O.blocks.length, t, t', fun fuel hf => ?_, g1, es, by rw [g3, h3], ⟨g4, ?_⟩, ?_⟩
  · exact tensordot_mono hf h1
  · rw [es]
    intro d hd
    simp only [List.mem_cons, List.not_mem_nil, or_false] at hd
    rcases hd with rfl | rfl | rfl
    · exact hL.2 _ (by simp [sL])
    · exact hO.2 _ (by simp [sO])
    · exact hL.2 _ (by simp [sL])
  · intro l w l' hl hw hl'
    rw [g5 [l, l', w] [l, w, l'] (by rw [h2]; exact inRange3 hl hl' hw) rfl]
    rw [show [l, l', w] = [l, l'] ++ [w] from rfl, h5 _ _ (inRange2 hl hl') (inRange1 hw)]
    simp only [List.map_nil, indices, List.map_cons, List.sum_cons, List.sum_nil, add_zero]
    rfl

theorem sections_chargeAt : ∀ {sh : Shape G} {e : List Nat} {p : List Nat × List Nat}, locateAll sh e = some p →
    ∃ secs, sections sh p.1 = some secs ∧ charge secs = (List.zipWith chargeAt sh e).sum
  | [], [], p, h => by
    simp only [locateAll, Option.some.injEq] at h
    subst h
    exact ⟨[], rfl, rfl⟩
  | [], _ :: _, p, h => by simp [locateAll] at h
  | _ :: _, [], p, h => by simp [locateAll] at h
  | d :: ds, x :: es, p, h => by
    rw [locateAll_cons] at h
    obtain ⟨k, o, ks, os, h1, h2, rfl⟩ := h
    obtain ⟨secs, g1, g2⟩ := sections_chargeAt h2
    obtain ⟨s, c1, c2, c3⟩ := locate_iff.mp h1
    refine ⟨s :: secs, sections_cons.mpr ⟨_, _, c1, g1, rfl⟩, ?_⟩
    have hc : chargeAt d x = s.2 := by simp [chargeAt, h1, c1]
    simp only [charge, List.map_cons, List.sum_cons, List.zipWith_cons_cons, hc] at g2 ⊢
    rw [g2]

theorem allowed_iff_chargeAt {sh : Shape G} {e : List Nat} {p : List Nat × List Nat} (h : locateAll sh e = some p) (q : G) :
    Allowed sh q p.1 ↔ (List.zipWith chargeAt sh e).sum = q := by
  obtain ⟨secs, g1, g2⟩ := sections_chargeAt h
  constructor
  · rintro ⟨secs', h1, h2⟩
    rw [g1] at h1; cases h1
    rw [← g2, h2]
  · intro hq
    exact ⟨secs, g1, by rw [g2, hq]⟩

theorem envEdge_eq [Zero R] [One R] (late : Bool) (x W : BT G R) (k : Nat) (hk : k < x.shape.length) (hk' : k < W.shape.length)
    (px : ∀ d ∈ x.shape, 0 < dimSize d) (pw : ∀ d ∈ W.shape, 0 < dimSize d) :
    ∃ N sx sw s r, edgeShape late x k = .ok sx ∧ edgeShape late W k = .ok sw ∧ shapeFromList [sx, sw, inverseCvals sx] = .ok s ∧
      (∀ fuel, N ≤ fuel → onesLike fuel s = some (.ok r)) ∧
      r.shape = [flipped (x.shape.getD k []), flipped (W.shape.getD k []), x.shape.getD k []] ∧
      r.rule = (if late then chargeAt (W.shape.getD k []) 0 else -chargeAt (W.shape.getD k []) 0) ∧
      Conserving r.shape r.rule r.blocks ∧
      ∀ l w l', l < dimSize (x.shape.getD k []) → w < dimSize (W.shape.getD k []) → l' < dimSize (x.shape.getD k []) →
        entry r.shape r.blocks [l, w, l'] =
          if chargeAt (x.shape.getD k []) l' - chargeAt (x.shape.getD k []) l - chargeAt (W.shape.getD k []) w
            = if late then chargeAt (W.shape.getD k []) 0 else -chargeAt (W.shape.getD k []) 0 then 1 else 0 := by
  obtain ⟨d, hd⟩ : ∃ d, d = x.shape.getD k [] := ⟨_, rfl⟩
  obtain ⟨e, he⟩ : ∃ e, e = W.shape.getD k [] := ⟨_, rfl⟩
  have hdp : 0 < dimSize d := by rw [hd, List.getD_eq_getElem _ _ hk]; exact px _ (List.getElem_mem hk)
  have hep : 0 < dimSize e := by rw [he, List.getD_eq_getElem _ _ hk']; exact pw _ (List.getElem_mem hk')
  have h1 := edgeShape_eq late x k hk px
  have h2 := edgeShape_eq late W k hk' pw
  rw [← hd] at h1
  rw [← he] at h2
  rw [← hd, ← he]
  obtain ⟨N, r, o1, o2, o3, o4, o5⟩ := onesLike_eq (R := R) [flipped d, flipped e, d]
    (if late then chargeAt e 0 else -chargeAt e 0) []
    (populated_of_pos (by
      intro a ha
      simp only [List.mem_cons, List.not_mem_nil, or_false] at ha
      rcases ha with rfl | rfl | rfl
      · rw [dimSize_flipped]; exact hdp
      · rw [dimSize_flipped]; exact hep
      · exact hdp))
  refine ⟨N, _, _, _, r, h1, h2, ?_, o1, o2, o3, o4, fun l w l' hl hw hl' => ?_⟩
  · rw [C32_shape_from_list _ (by simp)]
    have : List.map (fun s : Nat × G => (s.1, -s.2)) (flipped d) = d := flipped_flipped d
    simp only [inverseCvals, List.map_cons, List.map_nil, List.flatten_cons, List.flatten_nil, List.sum_cons, List.sum_nil,
      List.append_nil, List.cons_append, List.nil_append, add_zero, this]
    congr 2
    abel
  · obtain ⟨p, hp⟩ := locateAll_isSome.mpr (show InRange [l, w, l'] ([flipped d, flipped e, d].map dimSize) from
      inRange3 (by rw [dimSize_flipped]; exact hl) (by rw [dimSize_flipped]; exact hw) hl')
    have := o5 [l, w, l'] p hp
    rw [allowed_iff_chargeAt hp] at this
    simp only [List.zipWith_cons_cons, List.zipWith_nil_left, List.sum_cons, List.sum_nil, add_zero, chargeAt_flipped] at this
    have hc : -chargeAt d l + (-chargeAt e w + chargeAt d l') = chargeAt d l' - chargeAt d l - chargeAt e w := by abel
    rw [hc] at this
    by_cases h : chargeAt d l' - chargeAt d l - chargeAt e w = if late then chargeAt e 0 else -chargeAt e 0
    · rw [if_pos h]; exact this.1 h
    · rw [if_neg h]; exact this.2 h

end QuantiT.BN
