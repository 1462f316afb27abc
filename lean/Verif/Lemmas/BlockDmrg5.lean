import Verif.Lemmas.BlockDmrg4
/-
The new sites of the block DMRG.
-/
namespace QuantiT.BN
open Spec BT MP Finset

section
variable {G R : Type} [AddCommGroup G] [DecidableEq G]

theorem conserving_mapBlocks {S : Type} (g : R → S) {t : BT G R} (h : Conserving t.shape t.rule t.blocks) :
    Conserving (mapBlocks g t).shape (mapBlocks g t).rule (mapBlocks g t).blocks := by
  refine ⟨by unfold mapBlocks; exact FM.sorted_map_snd (g := fun b : Blk R => (⟨b.dims, fun o => g (b.f o)⟩ : Blk S)) h.sorted, ?_⟩
  intro k b hb
  obtain ⟨⟨k0, b0⟩, hm, he⟩ := List.mem_map.mp hb
  obtain ⟨rfl, rfl⟩ := Prod.mk.inj he
  exact h.block k0 b0 hm

theorem unsqueezed_ok [Zero R] {d : BT G R} {b0 : Dim G} (hd : d.shape = [b0]) (hc : Conserving d.shape d.rule d.blocks) (hb : b0 ≠ []) :
    ∃ r, (do reshapeAs false d (← unsqueezedShape d)) = Except.ok r := by
  have e : unsqueezedShape d = .ok ⟨[[(1, 0)], [(1, 0)], b0], d.rule, []⟩ := by
    unfold unsqueezedShape
    simp only [bind, Except.bind]
    rw [C32_shape_from_list _ (by simp)]
    simp only
    rw [C32_shape_from_list _ (by simp)]
    simp [hd]
  rw [e]
  simp only [bind, Except.bind]
  have hsec : ∀ (b b' : List Nat) (s s' : List (Nat × G)), sections d.shape b = some s →
      sections ([[(1, 0)], [(1, 0)], b0] : Shape G) b' = some s' →
      rowMajor (d.shape.map List.length) b = rowMajor (([[(1, 0)], [(1, 0)], b0] : Shape G).map List.length) b' →
      s' = (1, 0) :: (1, 0) :: s := by
    intro b b' s s' h1 h2 h3
    rw [hd] at h1 h3
    have one : ∀ (b : List Nat) (s : List (Nat × G)), sections [b0] b = some s → ∃ k x, b = [k] ∧ b0[k]? = some x ∧ s = [x] := by
      intro b s h
      rcases b with _ | ⟨k, b⟩
      · cases h
      · simp only [sections] at h
        cases hk : b0[k]? with
        | none => rw [hk] at h; cases h
        | some x =>
          rw [hk] at h
          rcases b with _ | ⟨k', b⟩
          · simp only [sections] at h
            exact ⟨k, x, rfl, hk, (Option.some.inj h).symm⟩
          · simp only [sections] at h; cases h
    have unit : ∀ (ds : Shape G) (b : List Nat) (s : List (Nat × G)), sections ([(1, 0)] :: ds) b = some s →
        ∃ b' s', b = 0 :: b' ∧ sections ds b' = some s' ∧ s = (1, 0) :: s' := by
      intro ds b s h
      rcases b with _ | ⟨k, b⟩
      · cases h
      · rcases k with _ | k
        · simp only [sections, List.getElem?_cons_zero] at h
          cases hs : sections ds b with
          | none => rw [hs] at h; cases h
          | some x => rw [hs] at h; exact ⟨b, x, rfl, hs, (Option.some.inj h).symm⟩
        · simp only [sections, List.getElem?_cons_succ, List.getElem?_nil] at h; cases h
    obtain ⟨k, x, rfl, g1, rfl⟩ := one b s h1
    obtain ⟨b1, s1, rfl, h4, rfl⟩ := unit _ _ _ h2
    obtain ⟨b2, s2, rfl, h5, rfl⟩ := unit _ _ _ h4
    obtain ⟨k', x', rfl, g2, rfl⟩ := one b2 s2 h5
    simp [rowMajor] at h3
    subst h3
    rw [g1] at g2
    cases g2
    rfl
  obtain ⟨h1, _⟩ := C26_reshape_as d ⟨[[(1, 0)], [(1, 0)], b0], d.rule, []⟩ hc
    (by rw [hd]; intro x hx; rw [List.mem_singleton.1 hx]; exact hb)
    (by intro x hx; simp at hx; rcases hx with rfl | rfl <;> simp [hb])
  obtain ⟨r, hr, _⟩ := h1
    ⟨by simp [hd], fun b b' s s' q1 q2 q3 => by rw [hsec b b' s s' q1 q2 q3]; simp⟩
    (fun b b' s s' q1 q2 q3 => by rw [hsec b b' s s' q1 q2 q3]; simp [charge])
  exact ⟨r, hr⟩

end

variable {G 𝕜 : Type} [RCLike 𝕜] [AddCommGroup G] [DecidableEq G]

/-- Dividing by the norm changes nothing if it is one. -/
theorem unitSumB_ok {d : BT G 𝕜} {b : Dim G} (hs : d.shape = neutralised [b]) (hr : d.rule = 0) (hc : Conserving d.shape d.rule d.blocks)
    (h1 : ∑ k ∈ range (dimSize b), entry d.shape d.blocks [k] ^ 2 = 1) :
    ∃ d', unitSumB d = .ok d' ∧ d'.shape = d.shape ∧ d'.rule = 0 ∧ Conserving d'.shape d'.rule d'.blocks ∧
      ∀ e, entry d'.shape d'.blocks e = entry d.shape d.blocks e := by
  obtain ⟨q1, q2, _⟩ := C64_sum_partial (mapBlocks (· ^ 2) d) (conserving_mapBlocks _ hc)
  have hsz : (mapBlocks (fun x : 𝕜 => x ^ 2) d).shape.map dimSize = [dimSize b] := by
    show d.shape.map dimSize = _
    rw [hs]; simp [neutralised, dimSize, Function.comp_def]
  rw [hsz, sum_indices1] at q2
  have hval : ∑ x ∈ range (dimSize b), entry (mapBlocks (fun x : 𝕜 => x ^ 2) d).shape (mapBlocks (fun x : 𝕜 => x ^ 2) d).blocks [x] = 1 := by
    rw [← h1]
    exact sum_congr rfl fun k _ => entry_mapBlocks _ (by simp) d [k]
  rw [hval] at q2
  obtain ⟨g, g1, g2⟩ : ∃ g : List Nat → 𝕜, BT.sum (mapBlocks (· ^ 2) d) = sc g ∧ g [] = 1 := by
    refine ⟨fun _ => ((mapBlocks (fun x : 𝕜 => x ^ 2) d).blocks.map fun kb => ((allIdx kb.2.dims).map kb.2.f).sum).sum, ?_, ?_⟩
    · unfold BT.sum sc
      simp only [BT.mk.injEq, true_and, and_true]
      exact hr
    · rw [← q2]
      simp only [BT.sum, entry, locateAll, lookup_cons, if_true]
  have := inPlace_sc (· / ·) hc.sorted (fun o => ((√(RCLike.re (g o)) : ℝ) : 𝕜))
  refine ⟨⟨d.shape, d.rule, numBlocks (fun x => x / ((√(RCLike.re (g [])) : ℝ) : 𝕜)) d.blocks⟩, ?_, rfl, hr, numBlocks_conserving (fun x => x / ((√(RCLike.re (g [])) : ℝ) : 𝕜)) hc, fun e => ?_⟩
  · unfold unitSumB
    rw [g1, sc_map]
    exact this
  · simp only
    rw [entry_num (by simp) hc, g2]
    simp

/-- The two sites made from the decomposition of a two-site tensor of norm one. -/
theorem new_sitesB {G : Type} [AddCommGroup G] [LinearOrder G] (fac : Blk 𝕜 → Blk 𝕜 × Blk 𝕜 × Blk 𝕜)
    (hfac : SvdSizes fac) (hprod : SvdProduct fac) (horth : SvdOrtho fac) (hreal : SvdReal fac)
    {t : BT G 𝕜} {θ : Blk 𝕜} {l s t' r : Dim G} (hR : Rep t θ) (hs : t.shape = [l, s, t', r]) (hb : t.blocks ≠ [])
    (hz : ∀ d ∈ t.shape, 0 < dimSize d) (hsm : l.length * s.length < 2 ^ 63)
    (h1 : ‖DM.toV [dimSize l, dimSize s, dimSize t', dimSize r] θ‖ = 1) (fwd : Bool) (fe : List Nat → ℝ) :
    ∃ A' B' b, (andNext (svdSplit fac t 2) fun f =>
        andNext (unitSumB f.2.1) fun d =>
        andNext (item (sc fe : BT G ℝ)) fun E =>
        if fwd then
          andNext (mulInPlace f.2.2 d) fun vd =>
          andNext (permute (conj star vd) [2, 0, 1]) fun nx =>
          some (.ok (E, f.1, nx))
        else
          andNext (do reshapeAs false d (← unsqueezedShape d)) fun _ =>
          andNext (mulInPlace f.1 d) fun ud =>
          andNext (permute (conj star f.2.2) [2, 0, 1]) fun nx =>
          some (.ok (E, ud, nx))) = some (.ok (fe [], A', B')) ∧
      A'.shape = [l, s, b] ∧ B'.shape = [flipped b, t', r] ∧ Sound A' ∧ Sound B' ∧ A'.rule + B'.rule = t.rule ∧
      (∀ x c c' y, x < dimSize l → c < dimSize s → c' < dimSize t' → y < dimSize r →
        θ.f [x, c, c', y] = ∑ m ∈ range (dimSize b), (denseOf A').f [x, c, m] * (denseOf B').f [m, c', y]) ∧
      (fwd = true → LeftOrth (denseOf A')) ∧ (fwd = false → RightOrth (denseOf B')) := by
  obtain ⟨u, d, v, b, e1, ⟨u1, u2, u3⟩, ⟨d1, d2, d3⟩, ⟨v1, v2, v3⟩, ⟨b1, b2, b3⟩, hp, ho, hr⟩ :=
    C79_split_partial fac hfac hprod horth t [l, s] [t', r] hs (by simp) (by simp) hR.1.1 hz hb
  have hr := hr hreal
  have e1 : svdSplit fac t 2 = .ok (u, d, v) := e1
  have u1 : u.shape = [l, s, b] := u1
  have v1 : v.shape = [flipped t', flipped r, b] := v1
  have lb : b.length < 2 ^ 63 := by
    simp at b2; omega
  have hso := hR.1.2
  rw [hs] at hso hz
  have pop : ∀ x : Dim G, 0 < dimSize x → x ≠ [] := by rintro x hx rfl; simp [dimSize] at hx
  have zl := hz l (by simp)
  have zs := hz s (by simp)
  have zt := hz t' (by simp)
  have zr := hz r (by simp)
  -- the dense decomposition
  have hsp : SvdPair θ (denseOf u) (denseOf d) (denseOf v) (dimSize l) (dimSize s) (dimSize t') (dimSize r) (dimSize b) := by
    refine ⟨by rw [denseOf_dims, u1]; rfl, ?_, ?_, fun m _ => hr m, ?_, ?_, ?_⟩
    · rw [denseOf_dims, d1]; simp [neutralised, dimSize, Function.comp_def]
    · rw [denseOf_dims, v1]; simp [dimSize_flipped]
    · intro a b' ha hb'
      have := (ho a b' ha hb').1
      simp only [List.map_cons, List.map_nil, sum_configs_cons', sum_configs_nil] at this
      exact this
    · intro a b' ha hb'
      have := (ho a b' ha hb').2
      simp only [List.map_cons, List.map_nil, sum_configs_cons', sum_configs_nil] at this
      exact this
    · intro i c c' j hi hc hc' hj
      rw [hR.f (by rw [hs]; exact .cons hi (.cons hc (.cons hc' (.cons hj .nil))))]
      exact hp [i, c] [c', j] (.cons hi (.cons hc .nil)) (.cons hc' (.cons hj .nil))
  have hnorm := DM.svd_norm hsp
  rw [← DM.inner_toV, inner_self_eq_norm_sq_to_K, h1] at hnorm
  obtain ⟨dn, n1, n2, n3, n4, n5⟩ := unitSumB_ok d1 d2 d3 (by
    refine Eq.trans ?_ (hnorm.symm.trans (by norm_num))
    refine sum_congr rfl fun m hm => ?_
    show _ = entry d.shape d.blocks [m] * star (entry d.shape d.blocks [m])
    rw [hr m, sq])
  have n2' : dn.shape = neutralised [b] := n2.trans d1
  have hnb : ∀ m, entry dn.shape dn.blocks [m] = entry d.shape d.blocks [m] := fun m => n5 [m]
  -- the right site from a factor
  have perm : ∀ w : BT G 𝕜, w.shape = [flipped t', flipped r, b] → Conserving w.shape w.rule w.blocks →
      ∃ q, permute (conj star w) [2, 0, 1] = .ok q ∧ q.shape = [flipped b, t', r] ∧ q.rule = -w.rule ∧ Sound q ∧
        ∀ k c j, k < dimSize b → c < dimSize t' → j < dimSize r →
          entry q.shape q.blocks [k, c, j] = star (entry w.shape w.blocks [c, j, k]) := by
    intro w hw hcw
    obtain ⟨cc, ce, cr, -⟩ := C27_conj (star : 𝕜 → 𝕜) (star_zero 𝕜) star_star w
    have cs : (conj star w).shape = [t', r, flipped b] := by rw [conj_shape, hw]; simp [flipped_flipped]
    obtain ⟨q, e2, q1, q2, q3, q4⟩ := C20_permute (conj star w) (cc hcw) [2, 0, 1] [2, 0, 1]
      (by rw [cs]; exact (by decide : [2, 0, 1].Perm (List.range 3)))
      (by
        rw [cs]
        exact .cons ⟨(by decide : 2 < 3), .inl rfl⟩ (.cons ⟨(by decide : 0 < 3), .inl rfl⟩ (.cons ⟨(by decide : 1 < 3), .inl rfl⟩ .nil)))
    have q1 : q.shape = [flipped b, t', r] := by rw [cs] at q1; exact (Option.some.inj q1).symm
    refine ⟨q, e2, q1, by rw [q2, cr], ⟨q3, ?_⟩, ?_⟩
    · rw [q1]
      intro x hx
      simp at hx
      rcases hx with rfl | rfl | rfl
      · simpa [flipped] using lb
      · exact hso _ (by simp)
      · exact hso _ (by simp)
    · intro k c j hk hc hj
      rw [q4 [c, j, k] [k, c, j] (by rw [cs]; exact .cons hc (.cons hj (.cons (by rw [dimSize_flipped]; exact hk) .nil))) rfl, ce]
  have sleft : ∀ w : BT G 𝕜, w.shape = [l, s, b] → Conserving w.shape w.rule w.blocks → Sound w := by
    intro w hw hcw
    refine ⟨hcw, ?_⟩
    rw [hw]
    intro x hx
    simp at hx
    rcases hx with rfl | rfl | rfl
    · exact hso _ (by simp)
    · exact hso _ (by simp)
    · exact lb
  have popv : Populated [flipped t', flipped r] := by
    intro x hx
    simp at hx
    rcases hx with rfl | rfl
    · exact pop _ (by rw [dimSize_flipped]; exact zt)
    · exact pop _ (by rw [dimSize_flipped]; exact zr)
  have popu : Populated [l, s] := by
    intro x hx
    simp at hx
    rcases hx with rfl | rfl
    · exact pop _ zl
    · exact pop _ zs
  cases fwd with
  | true =>
    obtain ⟨vd, w0, w1, w2, w3, w4⟩ := mul_last v dn [flipped t', flipped r] b v1 n2' n3 v3 n4 popv b1
    have w0 : mulInPlace v dn = .ok vd := (mul_last_in_place v dn [flipped t', flipped r] b v1 n2' v3 n4 popv b1).trans w0
    have w1 : vd.shape = [flipped t', flipped r, b] := w1
    obtain ⟨q, q0, q1, q2, q3, q4⟩ := perm vd w1 w3
    refine ⟨u, q, b, ?_, u1, q1, sleft u u1 u3, q3, by rw [q2, u2, w2, v2]; simp, ?_, fun _ => ?_, (fun h => by cases h)⟩
    · simp only [e1, andNext, andThen, n1, sc_item, if_true, w0, q0]
    · intro x c c' y hx hc hc' hy
      rw [hsp.prod x c c' y hx hc hc' hy]
      refine sum_congr rfl fun m hm => ?_
      show entry u.shape u.blocks [x, c, m] * entry d.shape d.blocks [m] * star (entry v.shape v.blocks [c', y, m])
        = entry u.shape u.blocks [x, c, m] * entry q.shape q.blocks [m, c', y]
      have := w4 [c', y] m (.cons (by rw [dimSize_flipped]; exact hc') (.cons (by rw [dimSize_flipped]; exact hy) .nil)) (mem_range.1 hm)
      simp only [List.cons_append, List.nil_append] at this
      rw [q4 m c' y (mem_range.1 hm) hc' hy, this, hnb, star_mul', hr m]
      ring
    · intro a b' ha hb'
      rw [hsp.udims] at ha hb' ⊢
      exact hsp.uorth a b' ha hb'
  | false =>
    obtain ⟨ud, w0, w1, w2, w3, w4⟩ := mul_last u dn [l, s] b u1 n2' n3 u3 n4 popu b1
    have w0 : mulInPlace u dn = .ok ud := (mul_last_in_place u dn [l, s] b u1 n2' u3 n4 popu b1).trans w0
    have w1 : ud.shape = [l, s, b] := w1
    obtain ⟨q, q0, q1, q2, q3, q4⟩ := perm v v1 v3
    obtain ⟨rr, r1⟩ := unsqueezed_ok (d := dn) n2' n4 (by simpa using b1)
    refine ⟨ud, q, b, ?_, w1, q1, sleft ud w1 w3, q3, by rw [q2, w2, u2, v2]; simp, ?_, (fun h => by cases h), fun _ => ?_⟩
    · simp only [e1, andNext, andThen, n1, sc_item, Bool.false_eq_true, if_false, w0, q0, r1]
    · intro x c c' y hx hc hc' hy
      rw [hsp.prod x c c' y hx hc hc' hy]
      refine sum_congr rfl fun m hm => ?_
      show entry u.shape u.blocks [x, c, m] * entry d.shape d.blocks [m] * star (entry v.shape v.blocks [c', y, m])
        = entry ud.shape ud.blocks [x, c, m] * entry q.shape q.blocks [m, c', y]
      have := w4 [x, c] m (.cons hx (.cons hc .nil)) (mem_range.1 hm)
      simp only [List.cons_append, List.nil_append] at this
      rw [q4 m c' y (mem_range.1 hm) hc' hy, this, hnb]
    · have gq : (denseOf q).dims = [dimSize b, dimSize t', dimSize r] := by rw [denseOf_dims, q1, ← dimSize_flipped b]; rfl
      intro a b' ha hb'
      rw [gq] at ha hb' ⊢
      rw [← hsp.vorth a b' ha hb']
      refine sum_congr rfl fun c hc => sum_congr rfl fun j hj => ?_
      show entry q.shape q.blocks [a, c, j] * star (entry q.shape q.blocks [b', c, j])
        = star (entry v.shape v.blocks [c, j, a]) * entry v.shape v.blocks [c, j, b']
      rw [q4 a c j ha (mem_range.1 hc) (mem_range.1 hj), q4 b' c j hb' (mem_range.1 hc) (mem_range.1 hj), star_star]

end QuantiT.BN
