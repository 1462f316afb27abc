import Verif.Model.Mps
import Verif.Spec.Mps
import Verif.Lemmas.Gather
import Mathlib.Algebra.BigOperators.Ring.Finset
import Mathlib.Algebra.Star.BigOperators
/-
Moving the orthogonality center of a dense MPS (C45).
-/
namespace QuantiT
namespace MP
open Spec Finset
variable {R : Type}

theorem getD_dims {A : Blk R} {l s r : Nat} (h : A.dims = [l, s, r]) :
    A.dims.getD 0 0 = l ∧ A.dims.getD 1 0 = s ∧ A.dims.getD 2 0 = r := by simp [h]

/-- Replacing two neighbours by two others with the same contraction keeps the amplitudes. -/
theorem amp_pair [Semiring R] (A B A' B' : Blk R) (post : List (Blk R)) (s t : Nat)
    (hl : A'.dims.getD 0 0 = A.dims.getD 0 0) (hr : B'.dims.getD 2 0 = B.dims.getD 2 0)
    (hsA : A.dims.getD 1 0 = s) (hsB : B.dims.getD 1 0 = t)
    (hp : ∀ i c c' j, i < A.dims.getD 0 0 → c < s → c' < t → j < B.dims.getD 2 0 →
      ∑ k ∈ range (A'.dims.getD 2 0), A'.f [i, c, k] * B'.f [k, c', j]
        = ∑ k ∈ range (A.dims.getD 2 0), A.f [i, c, k] * B.f [k, c', j]) :
    ∀ (pre : List (Blk R)) (cs : List Nat) (l r : Nat), InRange cs (phys (pre ++ A :: B :: post)) →
    Linked 3 ((pre ++ A :: B :: post).map Blk.dims) →
    l < leftEnd (pre ++ A :: B :: post) →
    amp (pre ++ A' :: B' :: post) cs l r = amp (pre ++ A :: B :: post) cs l r := by
  intro pre
  induction pre with
  | nil =>
    intro cs l r hc _ hll
    unfold phys at hc
    simp only [List.nil_append, List.map_cons] at hc ⊢
    cases hc with
    | cons h1 hc =>
      cases hc with
      | cons h2 hc =>
        rename_i c c' cs
        simp only [amp]
        have e : ∀ (X Y : Blk R), ∑ k ∈ range (X.dims.getD 2 0), X.f [l, c, k] * ∑ k' ∈ range (Y.dims.getD 2 0),
            Y.f [k, c', k'] * amp post cs k' r
            = ∑ j ∈ range (Y.dims.getD 2 0), (∑ k ∈ range (X.dims.getD 2 0), X.f [l, c, k] * Y.f [k, c', j]) * amp post cs j r := by
          intro X Y
          simp only [Finset.mul_sum, Finset.sum_mul]
          rw [Finset.sum_comm]
          simp only [mul_assoc]
        rw [e A' B', e A B, hr]
        apply Finset.sum_congr rfl
        intro j hj
        rw [hp l c c' j hll (hsA ▸ h1) (hsB ▸ h2) (Finset.mem_range.1 hj)]
  | cons X pre ih =>
    intro cs l r hc hlk hll
    unfold phys at hc
    simp only [List.cons_append, List.map_cons] at hc ⊢
    cases hc with
    | cons h1 hc =>
      rename_i c cs
      simp only [amp]
      apply Finset.sum_congr rfl
      intro k hk
      rw [ih cs k r hc]
      · refine ⟨fun s hs => hlk.1 s (by simp only [List.cons_append, List.map_cons]; exact List.mem_cons_of_mem _ hs), fun i s s' hi hi' => hlk.2 (i + 1) s s' ?_ ?_⟩
        · simpa using hi
        · simpa using hi'
      · have hk' := Finset.mem_range.1 hk
        have : ∃ Y tl, pre ++ A :: B :: post = Y :: tl := by
          cases pre with
          | nil => exact ⟨A, _, rfl⟩
          | cons Y tl => exact ⟨Y, _, rfl⟩
        obtain ⟨Y, tl, hY⟩ := this
        have h2 := hlk.2 0 X.dims Y.dims (by simp) (by simp [hY])
        rw [hY]
        simp only [leftEnd, List.head?_cons]
        rw [List.getD_eq_getElem?_getD] at hk' ⊢
        rwa [← h2]

theorem sites_split {sites : List (Blk R)} {p : Nat} {A B : Blk R} (hA : sites[p]? = some A)
    (hB : sites[p + 1]? = some B) : sites = sites.take p ++ A :: B :: sites.drop (p + 2) := by
  obtain ⟨h1, rfl⟩ := List.getElem?_eq_some_iff.1 hA
  obtain ⟨h2, rfl⟩ := List.getElem?_eq_some_iff.1 hB
  rw [← List.drop_eq_getElem_cons h2, ← List.drop_eq_getElem_cons h1, List.take_append_drop]

theorem set_split {sites : List (Blk R)} {p : Nat} {A B : Blk R} (hA : sites[p]? = some A)
    (hB : sites[p + 1]? = some B) (A' B' : Blk R) :
    (sites.set p A').set (p + 1) B' = sites.take p ++ A' :: B' :: sites.drop (p + 2) := by
  have hs := sites_split hA hB
  have h1 := (List.getElem?_eq_some_iff.1 hA).1
  have hl : (sites.take p).length = p := by simp; omega
  conv_lhs => rw [hs]
  rw [List.set_append_right _ _ (by omega), hl, List.set_append_right _ _ (by omega), hl]
  simp

/-- What replacing two neighbours does, when the contraction of the two is unchanged. -/
theorem pair_replace [Semiring R] {sites : List (Blk R)} {p : Nat} {A B A' B' : Blk R} {l s m t r k : Nat}
    (hA : sites[p]? = some A) (hB : sites[p + 1]? = some B) (hlk : Linked 3 (sites.map Blk.dims))
    (dA : A.dims = [l, s, m]) (dB : B.dims = [m, t, r]) (dA' : A'.dims = [l, s, k]) (dB' : B'.dims = [k, t, r])
    (hp : ∀ i c c' j, i < l → c < s → c' < t → j < r →
      ∑ x ∈ range k, A'.f [i, c, x] * B'.f [x, c', j] = ∑ x ∈ range m, A.f [i, c, x] * B.f [x, c', j]) :
    SameState sites ((sites.set p A').set (p + 1) B') ∧
    Linked 3 (((sites.set p A').set (p + 1) B').map Blk.dims) := by
  have hs := sites_split hA hB
  have h2 := (List.getElem?_eq_some_iff.1 hB).1
  have hset := set_split hA hB A' B'
  have hget : ∀ i, ((sites.set p A').set (p + 1) B')[i]? =
      if i = p + 1 then some B' else if i = p then some A' else sites[i]? := by
    intro i
    rw [List.getElem?_set, List.getElem?_set]
    by_cases h1 : i = p + 1
    · subst h1; rw [if_pos rfl, if_pos rfl, if_pos (by simpa using h2)]
    · rw [if_neg (by omega), if_neg h1]
      by_cases h0 : i = p
      · subst h0; rw [if_pos rfl, if_pos rfl, if_pos (by omega)]
      · rw [if_neg (by omega), if_neg h0]
  constructor
  · refine ⟨?_, ?_, ?_, ?_⟩
    · rw [hset]; conv_rhs => rw [hs]
      simp [phys, dA, dB, dA', dB']
    · rw [hset]; conv_rhs => rw [hs]
      cases sites.take p with
      | nil => simp [leftEnd, dA, dA']
      | cons => simp [leftEnd]
    · rw [hset]; conv_rhs => rw [hs]
      cases sites.drop (p + 2) with
      | nil => simp [rightEnd, dB, dB']
      | cons => simp [rightEnd]
    · intro cs a b hc ha _
      rw [hset]
      conv_rhs => rw [hs]
      rw [hs] at hc ha hlk
      refine amp_pair A B A' B' _ s t (by simp [dA, dA']) (by simp [dB, dB']) (by simp [dA]) (by simp [dB]) ?_ _ cs a b
        hc hlk ha
      · intro i c c' j hi hc hc' hj
        have := hp i c c' j (by simpa [dA] using hi) hc hc' (by simpa [dB] using hj)
        simpa [dA, dA'] using this
  · constructor
    · intro d hd
      obtain ⟨X, hX, rfl⟩ := List.mem_map.1 hd
      rw [hset] at hX
      simp only [List.mem_append, List.mem_cons] at hX
      rcases hX with hX | rfl | rfl | hX
      · exact hlk.1 _ (List.mem_map.2 ⟨X, List.mem_of_mem_take hX, rfl⟩)
      · rw [dA']; rfl
      · rw [dB']; rfl
      · exact hlk.1 _ (List.mem_map.2 ⟨X, List.mem_of_mem_drop hX, rfl⟩)
    · intro i d d' hi hi'
      rw [List.getElem?_map, hget] at hi hi'
      have old : ∀ (j : Nat) (x y : Blk R), sites[j]? = some x → sites[j + 1]? = some y → x.dims[2]? = y.dims[0]? :=
        fun j x y hx hy => hlk.2 j x.dims y.dims (by simp [hx]) (by simp [hy])
      by_cases c1 : i = p + 1
      · subst c1
        rw [if_pos rfl] at hi
        rw [if_neg (by omega), if_neg (by omega)] at hi'
        cases hy : sites[p + 1 + 1]? with
        | none => rw [hy] at hi'; cases hi'
        | some y =>
          rw [hy] at hi'
          cases hi; cases hi'
          have := old (p + 1) B y hB hy
          rw [← this, dB, dB']; rfl
      · rw [if_neg c1] at hi
        by_cases c0 : i = p
        · subst c0
          rw [if_pos rfl] at hi hi'
          cases hi; cases hi'
          rw [dA', dB']; rfl
        · rw [if_neg c0] at hi
          rw [if_neg (by omega)] at hi'
          cases hx : sites[i]? with
          | none => rw [hx] at hi; cases hi
          | some x =>
            rw [hx] at hi; cases hi
            by_cases c2 : i + 1 = p
            · rw [if_pos c2] at hi'; cases hi'
              have := old i x A hx (by rw [c2]; exact hA)
              rw [this, dA, dA']; rfl
            · rw [if_neg c2] at hi'
              cases hy : sites[i + 1]? with
              | none => rw [hy] at hi'; cases hi'
              | some y => rw [hy] at hi'; cases hi'; exact old i x y hx hy

/-! ### One step -/

/-- What one step to the right does at position `p`. -/
theorem stepRight_ok [CommSemiring R] [StarRing R] {svd : Blk R → Nat → Blk R × Blk R × Blk R} (hsvd : SvdOk svd)
    (m : MPS R) (hlk : Linked 3 (m.sites.map Blk.dims)) (hoc : m.oc + 1 < m.sites.length) :
    ∃ m', stepRight star svd m = .ok m' ∧ m'.oc = m.oc + 1 ∧ m'.sites.length = m.sites.length ∧
      SameState m.sites m'.sites ∧ Linked 3 (m'.sites.map Blk.dims) ∧
      (∀ A, m'.sites[m.oc]? = some A → LeftOrth A) ∧
      (∀ i, i ≠ m.oc → i ≠ m.oc + 1 → m'.sites[i]? = m.sites[i]?) := by
  have hA : m.sites[m.oc]? = some (m.sites[m.oc]'(by omega)) := List.getElem?_eq_getElem _
  have hB : m.sites[m.oc + 1]? = some (m.sites[m.oc + 1]'(by omega)) := List.getElem?_eq_getElem _
  generalize m.sites[m.oc]'(by omega) = A at hA
  generalize m.sites[m.oc + 1]'(by omega) = B at hB
  have rA : A.dims.length = 3 := hlk.1 _ (List.mem_map.2 ⟨A, List.mem_of_getElem? hA, rfl⟩)
  have rB : B.dims.length = 3 := hlk.1 _ (List.mem_map.2 ⟨B, List.mem_of_getElem? hB, rfl⟩)
  obtain ⟨l, s, n, dA⟩ := List.length_eq_three.1 rA
  obtain ⟨n', t, r, dB⟩ := List.length_eq_three.1 rB
  have hnn := hlk.2 m.oc A.dims B.dims (by simp [hA]) (by simp [hB])
  rw [dA, dB] at hnn
  simp only [List.getElem?_cons_succ, List.getElem?_cons_zero, Option.some.injEq] at hnn
  subst hnn
  obtain ⟨k, hk⟩ := hsvd.right A l s n dA
  generalize hu : (svd A 2).1 = u at hk
  generalize hd : (svd A 2).2.1 = d at hk
  generalize hv : (svd A 2).2.2 = v at hk
  have hs : svd A 2 = (u, d, v) := by rw [← hu, ← hd, ← hv]
  obtain ⟨du, dd, dv, hreal, hprod, horth⟩ := hk
  have e1 : mulLast v d = .ok ⟨[n, k], fun o => v.f o * d.f [o.getLastD 0]⟩ := by
    unfold mulLast
    rw [if_pos (by simp [dd, dv]), dv]
  let vt : Blk R := ⟨[k, n], fun o => v.f (BT.ungather [1, 0] o) * d.f [(BT.ungather [1, 0] o).getLastD 0]⟩
  have e2 : BT.permBlk [1, 0] (⟨[n, k], fun o => v.f o * d.f [o.getLastD 0]⟩ : Blk R) = .ok vt := by
    rfl
  let nx : Blk R := ⟨[k, t, r], fun o =>
        ∑ x ∈ range n, star (vt.f ((o.take 1).insertIdx 1 x)) * B.f ((o.drop 1).insertIdx 0 x)⟩
  have e3 : dot1 (conjBlk star vt) B 1 0 = .ok nx := by
    unfold dot1
    simp [conjBlk, vt, dB, nx]
  have hstep : stepRight star svd m = .ok ⟨(m.sites.set m.oc u).set (m.oc + 1) nx, m.oc + 1⟩ := by
    unfold stepRight
    simp only [hA, hB, BT.orUb, bind, Except.bind, hs, e1, e2, e3]
  have hpr : ∀ i c c' j, i < l → c < s → c' < t → j < r →
      ∑ x ∈ range k, u.f [i, c, x] * nx.f [x, c', j] = ∑ x ∈ range n, A.f [i, c, x] * B.f [x, c', j] := by
    intro i c c' j hi hc hc' hj
    have : ∀ x ∈ range n, A.f [i, c, x] * B.f [x, c', j]
        = ∑ y ∈ range k, (u.f [i, c, y] * d.f [y] * star (v.f [x, y])) * B.f [x, c', j] := by
      intro x hx
      rw [hprod i c x hi hc (Finset.mem_range.1 hx), Finset.sum_mul]
    rw [Finset.sum_congr rfl this, Finset.sum_comm]
    apply Finset.sum_congr rfl
    intro y hy
    simp only [nx, Finset.mul_sum]
    apply Finset.sum_congr rfl
    intro x _
    have : vt.f (([y, c', j].take 1).insertIdx 1 x) = v.f [x, y] * d.f [y] := rfl
    rw [this, star_mul', hreal y (Finset.mem_range.1 hy)]
    simp only [List.drop_succ_cons, List.drop_zero, List.insertIdx_zero]
    ring
  obtain ⟨hss, hlk'⟩ := pair_replace hA hB hlk dA dB du (show nx.dims = [k, t, r] from rfl) hpr
  refine ⟨_, hstep, rfl, by simp, hss, hlk', ?_, ?_⟩
  · intro X hX
    rw [List.getElem?_set_ne (by omega), List.getElem?_set_self (by omega)] at hX
    cases hX
    obtain ⟨g0, g1, g2⟩ := getD_dims du
    intro a b ha hb
    rw [g2] at ha hb
    rw [g0, g1]
    exact horth a b ha hb
  · intro i h1 h2
    rw [List.getElem?_set_ne (by omega), List.getElem?_set_ne (by omega)]

/-- What one step to the left does. -/
theorem stepLeft_ok [CommSemiring R] [StarRing R] {svd : Blk R → Nat → Blk R × Blk R × Blk R} (hsvd : SvdOk svd)
    (m : MPS R) (hlk : Linked 3 (m.sites.map Blk.dims)) (h0 : 0 < m.oc) (hoc : m.oc < m.sites.length) :
    ∃ m', stepLeft star svd m = .ok m' ∧ m'.oc = m.oc - 1 ∧ m'.sites.length = m.sites.length ∧
      SameState m.sites m'.sites ∧ Linked 3 (m'.sites.map Blk.dims) ∧
      (∀ A, m'.sites[m.oc]? = some A → RightOrth A) ∧
      (∀ i, i ≠ m.oc → i + 1 ≠ m.oc → m'.sites[i]? = m.sites[i]?) := by
  obtain ⟨p, hp⟩ : ∃ p, m.oc = p + 1 := ⟨m.oc - 1, by omega⟩
  have hA : m.sites[p]? = some (m.sites[p]'(by omega)) := List.getElem?_eq_getElem _
  have hB : m.sites[p + 1]? = some (m.sites[p + 1]'(by omega)) := List.getElem?_eq_getElem _
  generalize m.sites[p]'(by omega) = A at hA
  generalize m.sites[p + 1]'(by omega) = B at hB
  have rA : A.dims.length = 3 := hlk.1 _ (List.mem_map.2 ⟨A, List.mem_of_getElem? hA, rfl⟩)
  have rB : B.dims.length = 3 := hlk.1 _ (List.mem_map.2 ⟨B, List.mem_of_getElem? hB, rfl⟩)
  obtain ⟨l, s, n, dA⟩ := List.length_eq_three.1 rA
  obtain ⟨n', t, r, dB⟩ := List.length_eq_three.1 rB
  have hnn := hlk.2 p A.dims B.dims (by simp [hA]) (by simp [hB])
  rw [dA, dB] at hnn
  simp only [List.getElem?_cons_succ, List.getElem?_cons_zero, Option.some.injEq] at hnn
  subst hnn
  obtain ⟨k, hk⟩ := hsvd.left B n t r dB
  generalize hu : (svd B 1).1 = u at hk
  generalize hd : (svd B 1).2.1 = d at hk
  generalize hv : (svd B 1).2.2 = v at hk
  have hs : svd B 1 = (u, d, v) := by rw [← hu, ← hd, ← hv]
  obtain ⟨du, dd, dv, hprod, horth⟩ := hk
  have e1 : mulLast u d = .ok ⟨[n, k], fun o => u.f o * d.f [o.getLastD 0]⟩ := by
    unfold mulLast
    rw [if_pos (by simp [dd, du]), du]
  have e2 : BT.permBlk [2, 0, 1] v = .ok ⟨[k, t, r], fun o => v.f (BT.ungather [2, 0, 1] o)⟩ := by
    unfold BT.permBlk
    rw [dv]
    rfl
  let cu : Blk R := ⟨[k, t, r], fun o => star (v.f (BT.ungather [2, 0, 1] o))⟩
  let nx : Blk R := ⟨[l, s, k], fun o =>
        ∑ x ∈ range n, A.f ((o.take 2).insertIdx 2 x)
          * (u.f ((o.drop 2).insertIdx 0 x) * d.f [((o.drop 2).insertIdx 0 x).getLastD 0])⟩
  have e3 : dot1 A (⟨[n, k], fun o => u.f o * d.f [o.getLastD 0]⟩ : Blk R) 2 0 = .ok nx := by
    unfold dot1
    simp [dA, nx]
  have hstep : stepLeft star svd m = .ok ⟨(m.sites.set p nx).set (p + 1) cu, p⟩ := by
    unfold stepLeft
    rw [hp, Nat.add_sub_cancel]
    simp only [hA, hB, BT.orUb, bind, Except.bind, hs, e1, e2, e3]
    rw [List.set_comm _ _ (by omega)]
    rfl
  have hpr : ∀ i c c' j, i < l → c < s → c' < t → j < r →
      ∑ x ∈ range k, nx.f [i, c, x] * cu.f [x, c', j] = ∑ x ∈ range n, A.f [i, c, x] * B.f [x, c', j] := by
    intro i c c' j hi hc hc' hj
    have : ∀ x ∈ range n, A.f [i, c, x] * B.f [x, c', j]
        = ∑ y ∈ range k, A.f [i, c, x] * (u.f [x, y] * d.f [y] * star (v.f [c', j, y])) := by
      intro x hx
      rw [hprod x c' j (Finset.mem_range.1 hx) hc' hj, Finset.mul_sum]
    rw [Finset.sum_congr rfl this, Finset.sum_comm]
    apply Finset.sum_congr rfl
    intro y hy
    simp only [nx, Finset.sum_mul]
    apply Finset.sum_congr rfl
    intro x _
    have e : cu.f [y, c', j] = star (v.f [c', j, y]) := rfl
    have e' : (([i, c, y] : List Nat).take 2).insertIdx 2 x = [i, c, x] := rfl
    have e'' : (([i, c, y] : List Nat).drop 2).insertIdx 0 x = [x, y] := rfl
    rw [e, e', e'']
    simp only [List.getLastD_cons, List.getLastD_nil, mul_assoc]
  obtain ⟨hss, hlk'⟩ := pair_replace hA hB hlk dA dB (show nx.dims = [l, s, k] from rfl)
    (show cu.dims = [k, t, r] from rfl) hpr
  refine ⟨_, hstep, by simp [hp], by simp, hss, hlk', ?_, ?_⟩
  · intro X hX
    rw [hp, List.getElem?_set_self (by simp; omega)] at hX
    cases hX
    intro a b ha hb
    rw [← horth a b ha hb]
    apply Finset.sum_congr rfl; intro c _
    apply Finset.sum_congr rfl; intro j _
    have e : ∀ y, cu.f [y, c, j] = star (v.f [c, j, y]) := fun _ => rfl
    rw [e, e, star_star]
  · intro i h1 h2
    rw [List.getElem?_set_ne (by omega), List.getElem?_set_ne (by omega)]

/-! ### The loops -/

theorem SameState.trans [Semiring R] {a b c : List (Blk R)} (h : SameState a b) (h' : SameState b c) : SameState a c where
  phys := h'.phys.trans h.phys
  left := h'.left.trans h.left
  right := h'.right.trans h.right
  amp := fun cs l r hc hl hr => by
    rw [h'.amp cs l r (h.phys ▸ hc) (h.left ▸ hl) (h.right ▸ hr), h.amp cs l r hc hl hr]

theorem SameState.refl [Semiring R] (a : List (Blk R)) : SameState a a := ⟨rfl, rfl, rfl, fun _ _ _ _ _ _ => rfl⟩

theorem loopRight_ok [CommSemiring R] [StarRing R] {svd : Blk R → Nat → Blk R × Blk R × Blk R} (hsvd : SvdOk svd) :
    ∀ (n : Nat) (m : MPS R), Linked 3 (m.sites.map Blk.dims) → m.oc + n < m.sites.length →
    ∃ m', loopRight star svd n m = .ok m' ∧ m'.oc = m.oc + n ∧ m'.sites.length = m.sites.length ∧
      SameState m.sites m'.sites ∧ Linked 3 (m'.sites.map Blk.dims) ∧
      (∀ i A, m'.sites[i]? = some A → m.oc ≤ i → i < m.oc + n → LeftOrth A) ∧
      (∀ i, i < m.oc ∨ m.oc + n < i → m'.sites[i]? = m.sites[i]?) := by
  intro n
  induction n with
  | zero => intro m hlk _; exact ⟨m, rfl, rfl, rfl, SameState.refl _, hlk, fun i A _ h1 h2 => by omega, fun _ _ => rfl⟩
  | succ n ih =>
    intro m hlk hoc
    obtain ⟨m1, e1, o1, l1, s1, k1, q1, u1⟩ := stepRight_ok hsvd m hlk (by omega)
    obtain ⟨m2, e2, o2, l2, s2, k2, q2, u2⟩ := ih m1 k1 (by omega)
    refine ⟨m2, ?_, by omega, by omega, SameState.trans s1 s2, k2, ?_, ?_⟩
    · unfold loopRight; rw [e1]; exact e2
    · intro i A hA h1 h2
      by_cases hi : i = m.oc
      · subst hi
        rw [u2 m.oc (by omega)] at hA
        exact q1 A hA
      · exact q2 i A hA (by omega) (by omega)
    · intro i hi
      rw [u2 i (by omega), u1 i (by omega) (by omega)]

theorem loopLeft_ok [CommSemiring R] [StarRing R] {svd : Blk R → Nat → Blk R × Blk R × Blk R} (hsvd : SvdOk svd) :
    ∀ (n : Nat) (m : MPS R), Linked 3 (m.sites.map Blk.dims) → m.oc < m.sites.length → n ≤ m.oc →
    ∃ m', loopLeft star svd n m = .ok m' ∧ m'.oc = m.oc - n ∧ m'.sites.length = m.sites.length ∧
      SameState m.sites m'.sites ∧ Linked 3 (m'.sites.map Blk.dims) ∧
      (∀ i A, m'.sites[i]? = some A → m.oc - n < i → i ≤ m.oc → RightOrth A) ∧
      (∀ i, i < m.oc - n ∨ m.oc < i → m'.sites[i]? = m.sites[i]?) := by
  intro n
  induction n with
  | zero => intro m hlk _ _; exact ⟨m, rfl, rfl, rfl, SameState.refl _, hlk, fun i A _ h1 h2 => by omega, fun _ _ => rfl⟩
  | succ n ih =>
    intro m hlk hoc hn
    obtain ⟨m1, e1, o1, l1, s1, k1, q1, u1⟩ := stepLeft_ok hsvd m hlk (by omega) hoc
    obtain ⟨m2, e2, o2, l2, s2, k2, q2, u2⟩ := ih m1 k1 (by omega) (by omega)
    refine ⟨m2, ?_, by omega, by omega, SameState.trans s1 s2, k2, ?_, ?_⟩
    · unfold loopLeft; rw [e1]; exact e2
    · intro i A hA h1 h2
      by_cases hi : i = m.oc
      · subst hi
        rw [u2 m.oc (by omega)] at hA
        exact q1 A hA
      · exact q2 i A hA (by omega) (by omega)
    · intro i hi
      rw [u2 i (by omega), u1 i (by omega) (by omega)]

/-! ## C45 -/

/-- **C45** (dense chains; the block version `bMPS::move_oc` is C80).  For every chain of linked
rank-3 tensors, every center inside it and every target, `move_oc(i)` returns a chain of linked tensors with
the center at `i` that represents the same state; the sites passed over rightwards are left-orthonormal, those
passed over leftwards are right-orthonormal, the sites outside the path are untouched; hence a chain that was
canonical around its center is canonical around the new one. -/
theorem C45_move_oc [CommSemiring R] [StarRing R] {svd : Blk R → Nat → Blk R × Blk R × Blk R} (hsvd : SvdOk svd)
    (m : MPS R) (hlk : Linked 3 (m.sites.map Blk.dims)) (hoc : m.oc < m.sites.length) (i : Nat)
    (hi : i < m.sites.length) :
    ∃ m', moveOc star svd m i = .ok m' ∧ m'.oc = i ∧ m'.sites.length = m.sites.length ∧
      SameState m.sites m'.sites ∧ Linked 3 (m'.sites.map Blk.dims) ∧
      (∀ j A, m'.sites[j]? = some A → m.oc ≤ j → j < i → LeftOrth A) ∧
      (∀ j A, m'.sites[j]? = some A → i < j → j ≤ m.oc → RightOrth A) ∧
      (∀ j, (j < m.oc ∧ j < i) ∨ (m.oc < j ∧ i < j) → m'.sites[j]? = m.sites[j]?) ∧
      (Canonical m.sites m.oc → Canonical m'.sites i) := by
  have hA : m.sites[m.oc]? = some (m.sites[m.oc]) := List.getElem?_eq_getElem _
  obtain ⟨m1, e1, o1, l1, s1, k1, q1, u1⟩ := loopLeft_ok hsvd (m.oc - i) m hlk hoc (by omega)
  obtain ⟨m2, e2, o2, l2, s2, k2, q2, u2⟩ := loopRight_ok hsvd (i - m1.oc) m1 k1 (by omega)
  have hL : ∀ j A, m2.sites[j]? = some A → m.oc ≤ j → j < i → LeftOrth A :=
    fun j A hA h1 h2 => q2 j A hA (by omega) (by omega)
  have hR : ∀ j A, m2.sites[j]? = some A → i < j → j ≤ m.oc → RightOrth A := by
    intro j A hA h1 h2
    rw [u2 j (by omega)] at hA
    exact q1 j A hA (by omega) h2
  have hU : ∀ j, (j < m.oc ∧ j < i) ∨ (m.oc < j ∧ i < j) → m2.sites[j]? = m.sites[j]? := by
    intro j hj
    rw [u2 j (by omega), u1 j (by omega)]
  refine ⟨m2, ?_, by omega, by omega, SameState.trans s1 s2, k2, hL, hR, hU, ?_⟩
  · unfold moveOc
    rw [if_neg (by omega), hA]
    simp only [BT.orUb, bind, Except.bind, Int.toNat_natCast, e1]
    exact e2
  · rintro ⟨c1, c2⟩
    refine ⟨fun j A hA hj => ?_, fun j A hA hj => ?_⟩
    · by_cases h : m.oc ≤ j
      · exact hL j A hA h hj
      · rw [hU j (by omega)] at hA; exact c1 j A hA (by omega)
    · by_cases h : j ≤ m.oc
      · exact hR j A hA hj h
      · rw [hU j (by omega)] at hA; exact c2 j A hA (by omega)

/-- **C45**, rejection: a target outside the chain throws `invalid_argument`. -/
theorem C45_reject [Semiring R] (c : R → R) (svd : Blk R → Nat → Blk R × Blk R × Blk R) (m : MPS R) (i : Int)
    (hi : i < 0 ∨ (m.sites.length : Int) ≤ i) : moveOc c svd m i = Res.throw .invalidArgument := by
  unfold moveOc
  rw [if_pos (by omega)]

/-- A factorisation routine over `ℤ` that satisfies the contract: the orthonormal factor is the identity. -/
def idSvd (A : Blk ℤ) (split : Nat) : Blk ℤ × Blk ℤ × Blk ℤ :=
  let l := A.dims.getD 0 0; let s := A.dims.getD 1 0; let r := A.dims.getD 2 0
  if split = 2 then
    (⟨[l, s, l * s], fun o => if o.getD 0 0 * s + o.getD 1 0 = o.getD 2 0 then 1 else 0⟩,
      ⟨[l * s], fun _ => 1⟩,
      ⟨[r, l * s], fun o => A.f [o.getD 1 0 / s, o.getD 1 0 % s, o.getD 0 0]⟩)
  else
    (⟨[l, s * r], fun o => A.f [o.getD 0 0, o.getD 1 0 / r, o.getD 1 0 % r]⟩,
      ⟨[s * r], fun _ => 1⟩,
      ⟨[s, r, s * r], fun o => if o.getD 0 0 * r + o.getD 1 0 = o.getD 2 0 then 1 else 0⟩)

theorem delta_orth (l s a b : Nat) (ha : a < l * s) :
    ∑ i ∈ range l, ∑ c ∈ range s, (if i * s + c = a then (1 : ℤ) else 0) * (if i * s + c = b then 1 else 0)
      = if a = b then 1 else 0 := by
  have hs : 0 < s := Nat.pos_of_ne_zero (by rintro rfl; simp at ha)
  rw [Finset.sum_eq_single (a / s), Finset.sum_eq_single (a % s)]
  · rw [Nat.div_add_mod' a s]; simp
  · intro c _ hc
    rw [if_neg, zero_mul]
    intro h; apply hc
    have := Nat.div_add_mod' a s; omega
  · intro h; exact absurd (Finset.mem_range.2 (Nat.mod_lt _ hs)) h
  · intro i _ hi
    apply Finset.sum_eq_zero
    intro c hc
    rw [if_neg, zero_mul]
    intro h; apply hi
    rw [← h, Nat.add_comm, Nat.add_mul_div_right _ _ hs, Nat.div_eq_of_lt (Finset.mem_range.1 hc), Nat.zero_add]
  · intro h; exact absurd (Finset.mem_range.2 ((Nat.div_lt_iff_lt_mul hs).2 ha)) h

theorem flat_bound {i c l s : Nat} (hi : i < l) (hc : c < s) : i * s + c < l * s :=
  calc i * s + c < i * s + s := by omega
    _ = (i + 1) * s := by rw [Nat.add_mul, Nat.one_mul]
    _ ≤ l * s := Nat.mul_le_mul_right _ hi

theorem idSvd_ok : SvdOk idSvd where
  right := by
    intro A l s r hA
    refine ⟨l * s, ?_, ?_, ?_, ?_, ?_, ?_⟩
    · simp [idSvd, hA]
    · simp [idSvd, hA]
    · simp [idSvd, hA]
    · intro m _; simp
    · intro i c j hi hc hj
      rw [Finset.sum_eq_single (i * s + c)]
      · have h1 : (i * s + c) / s = i := by
          rw [Nat.add_comm, Nat.add_mul_div_right _ _ (by omega), Nat.div_eq_of_lt hc, Nat.zero_add]
        have h2 : (i * s + c) % s = c := by rw [Nat.add_comm, Nat.add_mul_mod_self_right, Nat.mod_eq_of_lt hc]
        simp [idSvd, hA, h1, h2]
      · intro m _ hm
        simp [idSvd, hA]
        intro h; exact absurd h.symm hm
      · intro h; exact absurd (Finset.mem_range.2 (flat_bound hi hc)) h
    · intro a b ha _
      simpa [idSvd, hA] using delta_orth l s a b ha
  left := by
    intro A l s r hA
    refine ⟨s * r, ?_, ?_, ?_, ?_, ?_⟩
    · simp [idSvd, hA]
    · simp [idSvd, hA]
    · simp [idSvd, hA]
    · intro i c j hi hc hj
      rw [Finset.sum_eq_single (c * r + j)]
      · have h1 : (c * r + j) / r = c := by
          rw [Nat.add_comm, Nat.add_mul_div_right _ _ (by omega), Nat.div_eq_of_lt hj, Nat.zero_add]
        have h2 : (c * r + j) % r = j := by rw [Nat.add_comm, Nat.add_mul_mod_self_right, Nat.mod_eq_of_lt hj]
        simp [idSvd, hA, h1, h2]
      · intro m _ hm
        simp [idSvd, hA]
        intro h; exact absurd h.symm hm
      · intro h; exact absurd (Finset.mem_range.2 (flat_bound hc hj)) h
    · intro a b ha _
      simpa [idSvd, hA] using delta_orth s r a b ha

/-- The theorem applies to a chain of three sites whose center moves from the last to the first and back. -/
example : ∃ m', moveOc star idSvd (⟨[⟨[1, 2, 2], fun o => o.sum⟩, ⟨[2, 2, 2], fun o => 1 + o.sum⟩, ⟨[2, 2, 1], fun _ => 3⟩], 2⟩ : MPS ℤ)
    ((0 : Nat) : Int) = .ok m' ∧ m'.oc = 0 ∧ ∀ j A, m'.sites[j]? = some A → 0 < j → j ≤ 2 → RightOrth A := by
  obtain ⟨m', h1, h2, _, _, _, _, h3, _⟩ := C45_move_oc idSvd_ok
    (⟨[⟨[1, 2, 2], fun o => o.sum⟩, ⟨[2, 2, 2], fun o => 1 + o.sum⟩, ⟨[2, 2, 1], fun _ => 3⟩], 2⟩ : MPS ℤ)
    ⟨by simp, fun i s s' h h' => by
      match i with
      | 0 => simp at h h'; subst h h'; rfl
      | 1 => simp at h h'; subst h h'; rfl
      | i + 2 => simp at h'⟩ (by simp) 0 (by simp)
  exact ⟨m', h1, h2, h3⟩

end MP
end QuantiT
