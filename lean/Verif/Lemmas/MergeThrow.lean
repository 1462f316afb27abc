import Verif.Model.Failure
import Verif.Lemmas.FlatMapMerge
/-
A merge whose collision functor may throw: it does not, when the functor is defined on the values that share a key.
-/
set_option linter.unusedSectionVars false
namespace QuantiT
namespace FM
open Spec
variable {K V : Type _} [LinearOrder K]

/-- An element whose value has been computed. -/
def up (e : K × V) : K × Option V := (e.1, some e.2)
def upL (l : FM K V) : FM K (Option V) := l.map up
def upC (c : Cells K V) : Cells K (Option V) := c.map (Option.map up)
def upS (s : MState K V) : MState K (Option V) := ⟨upC s.cells, s.last, s.look, s.mte⟩
/-- The functors on values that may be missing. -/
def totF (f : V → V → Option V) (a b : Option V) : Option V := a.bind fun v => b.bind fun w => f v w
def totG (g : V → V) (a : Option V) : Option V := a.map g

theorem lowerBound_up (l : FM K V) (k : K) : lowerBound (upL l) k = lowerBound l k := by
  simp only [lowerBound, upL, List.takeWhile_map, List.length_map]
  rfl

theorem readCell_up (c : Cells K V) (i : Nat) : readCell (upC c) i = match readCell c i with
    | .ok x => .ok (up x)
    | .error _ => Res.ub := by
  unfold readCell upC
  rw [List.getElem?_map]
  rcases c[i]? with _ | _ | x <;> rfl

theorem mapM_up {F' : Option (K × Option V) → Res (K × Option V)} {F : Option (K × V) → Res (K × V)} (h1 : F' none = Res.ub)
    (h2 : ∀ x, F' (some x) = .ok x) (h3 : F none = Res.ub) (h4 : ∀ x, F (some x) = .ok x) (c : Cells K V) :
    (upC c).mapM F' = match c.mapM F with
    | .ok x => .ok (upL x)
    | .error _ => Res.ub := by
  induction c with
  | nil => rfl
  | cons o c ih =>
    rw [upC, List.map_cons, ← upC, List.mapM_cons, List.mapM_cons, ih]
    rcases o with _ | x
    · simp [h1, h3, bind, Except.bind, Res.ub]
    · simp only [Option.map_some, h2, h4, bind, Except.bind, pure, Except.pure]
      rcases c.mapM F with e | l <;> rfl

theorem readRange_up (c : Cells K V) (a b : Nat) : readRange (upC c) a b = match readRange c a b with
    | .ok x => .ok (upL x)
    | .error _ => Res.ub := by
  unfold readRange
  have h : ((upC c).take b).drop a = upC ((c.take b).drop a) := by simp only [upC, List.map_take, List.map_drop]
  rw [h]
  exact mapM_up rfl (fun _ => rfl) rfl (fun _ => rfl) ((c.take b).drop a)

theorem copyBackward_up (c : Cells K V) (xs : FM K V) (d : Nat) : copyBackward (upC c) (upL xs) d = match copyBackward c xs d with
    | .ok x => .ok (upC x)
    | .error _ => Res.ub := by
  unfold copyBackward
  have h1 : (upL xs).length = xs.length := by simp [upL]
  have h2 : (upC c).length = c.length := by simp [upC]
  rw [h1, h2]
  split
  · simp only [upC, upL, List.map_append, List.map_take, List.map_drop, List.map_map]
    rfl
  · rfl

theorem moveBackward_up (c : Cells K V) (a b d : Nat) : moveBackward (upC c) a b d = match moveBackward c a b d with
    | .ok x => .ok (upC x)
    | .error _ => Res.ub := by
  unfold moveBackward
  rw [readRange_up]
  rcases readRange c a b with e | xs
  · rfl
  · simp only [bind, Except.bind]
    rw [← copyBackward_up]
    simp only [upC, List.map_append, List.map_take, List.map_drop, List.map_replicate, Option.map_none]

/-- A step with a throwing functor against the step on values that may be missing. -/
def Sim (r : Except (Stop K V) (MState K V)) (q : Res (MState K (Option V))) : Prop :=
  match r with
  | .ok s => q = .ok (upS s)
  | .error .ub => q = Res.ub
  | .error (.threw _) => ∃ s' k, q = .ok s' ∧ s'.cells[s'.mte]? = some (some (k, none))

theorem readCell_lt {c : Cells K V} {i : Nat} {x : K × V} (h : readCell c i = .ok x) : i < c.length := by
  unfold readCell at h
  by_contra hc
  rw [List.getElem?_eq_none (by omega)] at h
  cases h

theorem upL_g (g : V → V) (l : FM K V) : (upL l).map (fun e => (e.1, totG g e.2)) = upL (l.map fun e => (e.1, g e.2)) := by
  simp [upL, up, totG, Function.comp_def]

theorem upC_set (c : Cells K V) (i : Nat) (x : Option (K × V)) : upC (c.set i x) = (upC c).set i (x.map up) := by
  simp [upC, List.map_set]

theorem simA (f : V → V → Option V) (g : V → V) (src : FM K V) (s : MState K V) :
    Sim (mergePartAT f g src s) (mergePartA (totF f) (totG g) (upL src) (upS s)) := by
  unfold mergePartAT mergePartA
  simp only [upS, readCell_up]
  rcases readCell s.cells (s.look - 1) with e | top
  · rfl
  simp only [lift, bind, Except.bind]
  have ht : (upL src).take s.last = upL (src.take s.last) := by simp [upL, List.map_take]
  have hk : (up top).1 = top.1 := rfl
  simp only [ht, hk, lowerBound_up]
  generalize src.take s.last = S
  generalize lowerBound S top.1 = la
  have hS : (upL S)[la]? = (S[la]?).map up := by simp [upL]
  rw [hS]
  rcases S[la]? with _ | e
  · rfl
  simp only [Option.map_some]
  have he : (up e).1 = e.1 := rfl
  have hd : ∀ n, (upL S).drop n = upL (S.drop n) := by intro n; simp [upL, List.map_drop]
  have hl : ∀ l : FM K V, (upL l).length = l.length := by intro l; simp [upL]
  simp only [he, hd, upL_g, copyBackward_up, hl]
  split
  · rcases copyBackward s.cells _ s.mte with e' | c
    · rfl
    · rfl
  · rcases copyBackward s.cells _ s.mte with e' | c
    · rfl
    simp only [readCell_up]
    rcases hx : readCell c (s.look - 1) with e' | x
    · rfl
    simp only
    have hc' : ∀ i j, (if i ≠ j then ((upC c).set j none).set i (some (up x)) else upC c) =
        upC (if i ≠ j then (c.set j none).set i (some x) else c) := by
      intro i j
      split <;> simp [upC_set]
    rw [hc', readCell_up]
    rcases hy : readCell (if s.mte - (S.drop (la + 1)).length - 1 ≠ s.look - 1 then
        (c.set (s.look - 1) none).set (s.mte - (S.drop (la + 1)).length - 1) (some x) else c)
        (s.mte - (S.drop (la + 1)).length - 1) with e' | y
    · rfl
    simp only
    have hlt := readCell_lt hy
    rcases hf : f y.2 e.2 with _ | w
    · refine ⟨_, y.1, rfl, ?_⟩
      simp only [up, totF, Option.bind_some, hf]
      rw [List.getElem?_set_self (by simpa [upC] using hlt)]
    · simp only [Sim, upS, upC_set, Option.map_some]
      simp only [up, totF, Option.bind_some, hf]

theorem simB (f : V → V → Option V) (src : FM K V) (s : MState K V) :
    Sim (mergePartBT f src s) (mergePartB (totF f) (upL src) (upS s)) := by
  have hu : upS s = ⟨upC s.cells, s.last, s.look, s.mte⟩ := rfl
  rw [hu]
  unfold mergePartBT mergePartB
  dsimp only
  have hS : (upL src)[s.last - 1]? = (src[s.last - 1]?).map up := by simp [upL]
  rw [hS]
  rcases src[s.last - 1]? with _ | key
  · rfl
  simp only [Option.map_some, readRange_up]
  rcases readRange s.cells 0 s.look with e | own
  · rfl
  simp only [lift, bind, Except.bind]
  have hk : (up key).1 = key.1 := rfl
  rw [hk, lowerBound_up]
  generalize lowerBound own key.1 = lb
  have hmv : ∃ q : Res (Cells K V),
      (if s.mte ≠ s.look then moveBackward s.cells lb s.look s.mte else .ok s.cells : Res (Cells K V)) = q ∧
      (if s.mte ≠ s.look then moveBackward (upC s.cells) lb s.look s.mte else .ok (upC s.cells) : Res (Cells K (Option V))) =
      match q with
      | .ok x => .ok (upC x)
      | .error _ => Res.ub := by
    by_cases hne : s.mte ≠ s.look
    · exact ⟨_, if_pos hne, by rw [if_pos hne]; exact moveBackward_up _ _ _ _⟩
    · exact ⟨_, if_neg hne, by rw [if_neg hne]⟩
  obtain ⟨q, q1, q2⟩ := hmv
  simp only [q1, q2]
  clear q1 q2
  rcases q with e | c
  · rfl
  simp only [readCell_up]
  rcases hy : readCell c (s.mte - (s.look - lb)) with e' | y
  · rfl
  simp only
  have hlt := readCell_lt hy
  have hky : (up y).1 = y.1 := rfl
  rw [hky]
  split
  · rfl
  · rcases hf : f y.2 key.2 with _ | w
    · refine ⟨_, y.1, rfl, ?_⟩
      simp only [up, totF, Option.bind_some, hf]
      rw [List.getElem?_set_self (by simpa [upC] using hlt)]
    · simp only [Sim, upS, upC_set, Option.map_some]
      simp only [up, totF, Option.bind_some, hf]

/-- No missing value among the finished elements. -/
theorem no_miss {f : V → V → Option V} {g : V → V} {m src : FM K V}
    (hf : ∀ k v w, lookup m k = some v → lookup src k = some w → f v w ≠ none) (hms : Sorted m) (hss : Sorted src)
    {O1 O2 S1 S2 out gap} {s : MState K (Option V)} (h : Inv (totF f) (totG g) (upL m) (upL src) O1 O2 S1 S2 gap out s) (k : K) :
    s.cells[s.mte]? ≠ some (some (k, none)) := by
  intro hc
  rw [h.hcells, h.hmte, List.getElem?_append_right (by simp)] at hc
  simp only [List.length_append, List.length_map, Nat.sub_self] at hc
  have hmem : (k, none) ∈ out := by
    rcases out with _ | ⟨o, out⟩
    · simp at hc
    · simp at hc; simp [hc]
  have hl := lookup_of_mem h.hout hmem
  rw [h.hval] at hl
  have hm' : Sorted (upL m) := sorted_map_snd hms
  have hs' : Sorted (upL src) := sorted_map_snd hss
  have a1 : ∀ v, lookup O2 k = some v → ∃ u, v = some u ∧ lookup m k = some u := by
    intro v hv
    have : (k, v) ∈ upL m := by rw [h.hm]; exact List.mem_append_right _ (mem_of_lookup hv)
    simp only [upL, List.mem_map, up, Prod.mk.injEq] at this
    obtain ⟨e, he, rfl, rfl⟩ := this
    exact ⟨e.2, rfl, lookup_of_mem hms he⟩
  have a2 : ∀ v, lookup S2 k = some v → ∃ u, v = some u ∧ lookup src k = some u := by
    intro v hv
    have : (k, v) ∈ upL src := by rw [h.hsrc]; exact List.mem_append_right _ (mem_of_lookup hv)
    simp only [upL, List.mem_map, up, Prod.mk.injEq] at this
    obtain ⟨e, he, rfl, rfl⟩ := this
    exact ⟨e.2, rfl, lookup_of_mem hss he⟩
  rcases h1 : lookup O2 k with _ | v <;> rcases h2 : lookup S2 k with _ | w <;> rw [h1, h2] at hl
  · simp [mergeVal] at hl
  · obtain ⟨u, rfl, _⟩ := a2 _ h2
    simp [mergeVal, totG] at hl
  · obtain ⟨u, rfl, _⟩ := a1 _ h1
    simp [mergeVal] at hl
  · obtain ⟨u, rfl, g1⟩ := a1 _ h1
    obtain ⟨u', rfl, g2⟩ := a2 _ h2
    simp [mergeVal, totF] at hl
    exact hf _ _ _ g1 g2 hl

theorem mergeLoopT_spec {f : V → V → Option V} {g : V → V} {m src : FM K V}
    (hf : ∀ k v w, lookup m k = some v → lookup src k = some w → f v w ≠ none) (hms : Sorted m) (hss : Sorted src) :
    ∀ (fuel : Nat) (s : MState K V) (O1 O2 S1 S2 out : FM K (Option V)) (gap : Cells K (Option V)),
      Inv (totF f) (totG g) (upL m) (upL src) O1 O2 S1 S2 gap out (upS s) → s.look + s.last < fuel →
      ∃ s', mergeLoopT f g src fuel s = .ok s' ∧ mergeLoop (totF f) (totG g) (upL src) fuel (upS s) = .ok (upS s')
  | 0, _, _, _, _, _, _, _, _, h => by omega
  | fuel + 1, s, O1, O2, S1, S2, out, gap, h, hfu => by
    have hm' : Sorted (upL m) := sorted_map_snd hms
    have hs' : Sorted (upL src) := sorted_map_snd hss
    by_cases hc : s.look ≠ 0 ∧ s.last ≠ 0
    · have hc' : (upS s).look ≠ 0 ∧ (upS s).last ≠ 0 := hc
      have hO1 : O1 ≠ [] := by intro e; subst e; exact hc.1 h.hlook
      have hS1 : S1 ≠ [] := by intro e; subst e; exact hc.2 h.hlast
      obtain ⟨O1', O2', S1', S2', gap', out', s', hrun, hinv, hl, hla, hready, hprog⟩ := partA_spec hm' hs' h hO1 hS1
      have hsim := simA f g src s
      rw [hrun] at hsim
      simp only [mergeLoop, mergeLoopT, if_pos hc, if_pos hc', hrun, bind, Except.bind]
      rcases hA : mergePartAT f g src s with ⟨_ | c⟩ | s1 <;> rw [hA] at hsim
      · cases hsim
      · obtain ⟨s2, k, e1, e2⟩ := hsim
        cases e1
        exact absurd e2 (no_miss hf hms hss hinv k)
      cases hsim
      simp only
      have e0 : (upS s1).last = s1.last := rfl
      by_cases h0 : s1.last = 0
      · rw [if_pos h0, if_pos (e0.trans h0)]; exact ⟨_, rfl, rfl⟩
      · rw [if_neg h0, if_neg (by rw [e0]; exact h0)]
        have hS1' : S1' ≠ [] := by intro e; subst e; exact h0 hinv.hlast
        obtain ⟨O1'', O2'', S1'', S2'', gap'', out'', s'', hrun2, hinv2, hl2, hla2, hprog2⟩ :=
          partB_spec hm' hs' hinv hS1' hready
        have hsim2 := simB f src s1
        rw [hrun2] at hsim2
        rcases hB : mergePartBT f src s1 with ⟨_ | c⟩ | s2 <;> rw [hB] at hsim2
        · cases hsim2
        · obtain ⟨s3, k, e1, e2⟩ := hsim2
          cases e1
          exact absurd e2 (no_miss hf hms hss hinv2 k)
        cases hsim2
        rw [hrun2]
        simp only
        apply mergeLoopT_spec hf hms hss fuel s2 O1'' O2'' S1'' S2'' out'' gap'' hinv2
        have e1 : (upS s2).look = s2.look := rfl
        have e2 : (upS s2).last = s2.last := rfl
        have e3 : (upS s1).look = s1.look := rfl
        have e4 : (upS s).look = s.look := rfl
        have e5 : (upS s).last = s.last := rfl
        rcases hprog with h1 | h1
        · omega
        · have := hprog2 h1; omega
    · have hc' : ¬ ((upS s).look ≠ 0 ∧ (upS s).last ≠ 0) := hc
      exact ⟨s, by simp only [mergeLoopT, if_neg hc], by simp only [mergeLoop, if_neg hc']⟩

theorem countNew_up (m : FM K V) : ∀ (xs : FM K V) (i n : Nat), countNew (upL m) (upL xs) i n = countNew m xs i n
  | [], _, _ => rfl
  | x :: xs, i, n => by
    have hd : (upL m).drop i = upL (m.drop i) := by simp [upL, List.map_drop]
    simp only [upL, List.map_cons, countNew]
    rw [← upL, ← upL, hd, lowerBound_up]
    have hS : ∀ j : Nat, (upL m)[j]? = (m[j]?).map up := by intro j; simp [upL]
    have hx : (up x).1 = x.1 := rfl
    rw [hS, hx]
    rcases m[i + lowerBound (m.drop i) x.1]? with _ | e
    · rfl
    · exact countNew_up m xs _ _

/-- The merge does not throw, and computes what it computes with a functor that agrees with this one where both containers
hold the key. -/
theorem mergeInsertT_ok {f : V → V → Option V} {f' : V → V → V} {g : V → V} {m src : FM K V}
    (hf : ∀ k v w, lookup m k = some v → lookup src k = some w → f v w = some (f' v w)) (hms : Sorted m) (hss : Sorted src) :
    ∃ r, mergeInsertT f g m src = .ok r ∧ mergeInsert f' g m src = .ok r := by
  have hm' : Sorted (upL m) := sorted_map_snd hms
  have hs' : Sorted (upL src) := sorted_map_snd hss
  have hcount : countNew (upL m) (upL src) 0 (upL src).length = newCount (upL src) (upL m) := by
    have := countNew_spec hm' (upL src) [] (upL m) 0 rfl hs' (by simp)
    simpa using this
  have hlen : ∀ l : FM K V, (upL l).length = l.length := by intro l; simp [upL]
  obtain ⟨n, hn⟩ : ∃ n, n = countNew m src 0 src.length := ⟨_, rfl⟩
  have hn' : newCount (upL src) (upL m) = n := by rw [← hcount, countNew_up, hlen, hn]
  have hs0 : upS ⟨m.map some ++ List.replicate n none, src.length, m.length, m.length + n⟩ =
      (⟨(upL m).map some ++ List.replicate n none, (upL src).length, (upL m).length, (upL m).length + n⟩ : MState K (Option V)) := by
    simp [upS, upC, upL, Function.comp_def]
  have hinv0 : Inv (totF f) (totG g) (upL m) (upL src) (upL m) [] (upL src) [] (List.replicate n none) []
      (upS ⟨m.map some ++ List.replicate n none, src.length, m.length, m.length + n⟩) := by
    rw [hs0]
    exact ⟨by simp, by simp, rfl, rfl, by simp, by simp, by simp [hn'], sorted_nil, by simp, by simp,
      by simp [lookup_nil, mergeVal], by simp⟩
  have hne : ∀ k v w, lookup m k = some v → lookup src k = some w → f v w ≠ none := by
    intro k v w h1 h2; rw [hf k v w h1 h2]; simp
  obtain ⟨s', l1, l2⟩ := mergeLoopT_spec hne hms hss (m.length + src.length + 1) _ _ _ _ _ _ _ hinv0 (by simp)
  obtain ⟨R, r1, r2, r3⟩ := mergeInsert_spec (totF f) (totG g) hm' hs'
  obtain ⟨r', q1, q2, q3⟩ := mergeInsert_spec f' g hms hss
  have key : ∃ r, mergeInsertT f g m src = .ok r ∧ R = upL r := by
    unfold mergeInsert at r1
    unfold mergeInsertT
    simp only [bind, Except.bind] at r1 ⊢
    rw [countNew_up, hlen, hlen, ← hn] at r1
    rw [hs0, hlen, hlen] at l2
    rw [← hn]
    simp only [l1]
    simp only [l2] at r1
    have e0 : (upS s').last = s'.last := rfl
    have e1 : (upS s').mte = s'.mte := rfl
    have e2 : (upS s').cells = upC s'.cells := rfl
    rw [e0, e1, e2] at r1
    split at r1
    · rename_i hcnd
      rw [if_pos hcnd]
      have ht : (upL src).take s'.last = upL (src.take s'.last) := by simp [upL, List.map_take]
      rw [ht, copyBackward_up] at r1
      rcases hcb : copyBackward s'.cells (src.take s'.last) s'.mte with e | c1 <;> rw [hcb] at r1
      · cases r1
      simp only [lift] at r1 ⊢
      unfold applyNoCollision at r1 ⊢
      simp only [bind, Except.bind] at r1 ⊢
      rw [readRange_up] at r1
      rcases hrr : readRange c1 0 s'.mte with e | xs <;> rw [hrr] at r1
      · cases r1
      simp only at r1 ⊢
      have hc2 : (upL xs).map (fun e => some (e.1, totG g e.2)) ++ (upC c1).drop s'.mte =
          upC (xs.map (fun e => some (e.1, g e.2)) ++ c1.drop s'.mte) := by
        simp [upL, upC, up, totG, Function.comp_def, List.map_drop]
      have hlc : ∀ c : Cells K V, (upC c).length = c.length := by intro c; simp [upC]
      rw [hc2, hlc, readRange_up] at r1
      generalize xs.map (fun e => some (e.1, g e.2)) ++ c1.drop s'.mte = c2 at r1 ⊢
      rcases hr2 : readRange c2 0 c2.length with e | r <;> rw [hr2] at r1
      · cases r1
      · simp only [Except.ok.injEq] at r1
        exact ⟨r, rfl, r1.symm⟩
    · cases r1
  obtain ⟨r, k1, rfl⟩ := key
  refine ⟨r, k1, ?_⟩
  rw [q1]
  congr 1
  have hrs : Sorted r := by
    unfold Sorted upL at r2
    rw [List.pairwise_map] at r2
    exact r2
  refine sorted_ext q2 hrs fun k => ?_
  have h3 := r3 k
  have hl : ∀ l : FM K V, lookup (upL l) k = (lookup l k).map some := by
    intro l; exact lookup_map_snd some l k
  have hc : (∀ e ∈ upL src, k < e.1) ↔ ∀ e ∈ src, k < e.1 := by
    simp only [upL, List.forall_mem_map, up]
  rw [hl, hl, hl] at h3
  simp only [hc] at h3
  rw [q3 k]
  split at h3
  · rename_i hcnd
    rw [if_pos hcnd]
    generalize lookup m k = a at h3 ⊢
    generalize lookup r k = b at h3 ⊢
    cases a <;> cases b <;> simp [totG] at h3 ⊢
    exact h3.symm
  · rename_i hcnd
    rw [if_neg hcnd]
    have hfk := hf k
    generalize lookup m k = a at h3 hfk ⊢
    generalize lookup src k = a' at h3 hfk ⊢
    generalize lookup r k = b at h3 ⊢
    cases a <;> cases a' <;> cases b <;> simp [mergeVal, totG, totF] at h3 hfk ⊢
    · exact h3.symm
    · exact h3.symm
    · rw [hfk] at h3; cases h3; rfl

end FM
end QuantiT
