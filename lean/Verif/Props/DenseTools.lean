import Verif.Model.DenseTools
import Verif.Lemmas.Contract2
/-
C58, C59: dimension list helpers and the generalised contraction of dense tensors.
-/
namespace QuantiT
open Spec BT

/-! ### C58 -/

/-- C58: `concat` concatenates. -/
theorem C58_concat (ls : List (List Int)) : Dense.concat ls = ls.flatten := by
  have : ∀ (ls : List (List Int)) (a : List Int), ls.foldl (fun out a => out ++ a) a = a ++ ls.flatten := by
    intro ls
    induction ls with
    | nil => intro a; simp
    | cons l ls ih => intro a; simp [ih, List.append_assoc]
  simpa [Dense.concat] using this ls []

theorem foldlM_mul64 : ∀ (dims : List Int) (a : Int),
    (∀ k ≤ dims.length, -(2 ^ 63) ≤ a * (dims.take k).prod ∧ a * (dims.take k).prod < 2 ^ 63) →
    dims.foldlM Dense.mul64 a = .ok (a * dims.prod) := by
  intro dims
  induction dims with
  | nil => intro a _; simp [pure, Except.pure]
  | cons x dims ih =>
    intro a h
    have h1 := h 1 (by simp)
    simp only [List.take_succ_cons, List.take_zero, List.prod_cons, List.prod_nil, mul_one] at h1
    rw [List.foldlM_cons]
    have hm : Dense.mul64 a x = .ok (a * x) := if_pos h1
    rw [hm]
    simp only [bind, Except.bind]
    rw [ih]
    · simp [mul_assoc]
    · intro k hk
      have := h (k + 1) (by simpa using hk)
      simpa [mul_assoc] using this

/-- C58: `prod` multiplies the listed dimensions, when no partial product leaves the range of `int64_t`. -/
theorem C58_prod (dims : List Int)
    (h : ∀ k ≤ dims.length, -(2 ^ 63) ≤ (dims.take k).prod ∧ (dims.take k).prod < 2 ^ 63) :
    Dense.prod dims = .ok dims.prod := by
  have := foldlM_mul64 dims 1 (by simpa using h)
  simpa [Dense.prod] using this

example : Dense.prod [2, 3, 4] = .ok 24 := by
  refine C58_prod [2, 3, 4] ?_
  intro k hk
  have : k = 0 ∨ k = 1 ∨ k = 2 ∨ k = 3 := by simp at hk; omega
  rcases this with rfl | rfl | rfl | rfl <;> simp

/-- C58: `prod(dims, start, n)` multiplies `n` dimensions from `start`, and throws when they do not exist. -/
theorem C58_prod_slice (dims : List Int) (start n : Nat)
    (h : ∀ k ≤ n, -(2 ^ 63) ≤ ((dims.drop start).take k).prod ∧ ((dims.drop start).take k).prod < 2 ^ 63) :
    Dense.prodSlice dims start n =
      if start + n ≤ dims.length then .ok ((dims.drop start).take n).prod else Res.throw .runtimeError := by
  unfold Dense.prodSlice Dense.slice
  split
  · rename_i hl
    simp only [bind, Except.bind]
    apply C58_prod
    intro k hk
    rw [List.take_take]
    have := h (min k n) (by omega)
    exact this
  · rfl

example : Dense.prodSlice [2, 3, 4] 1 2 = .ok 12 := by
  refine C58_prod_slice [2, 3, 4] 1 2 ?_
  intro k hk
  have : k = 0 ∨ k = 1 ∨ k = 2 := by omega
  rcases this with rfl | rfl | rfl <;> simp

/-- C58 for `reverse`, what is true: the result starts with the reversed list. Missing: nothing should follow
(`C58_reverse_fails`). -/
theorem C58_reverse_partial (dims : List Int) : (Dense.reverse dims).take dims.length = dims.reverse := by
  simp [Dense.reverse]

/-- C58 fails for `reverse`: the result has twice the length, the second half being zeros, for every non empty
list. -/
theorem C58_reverse_fails (dims : List Int) (h : dims ≠ []) :
    Dense.reverse dims = dims.reverse ++ List.replicate dims.length 0 ∧
    (Dense.reverse dims).length = 2 * dims.length ∧ Dense.reverse dims ≠ dims.reverse := by
  refine ⟨rfl, by simp [Dense.reverse]; omega, ?_⟩
  intro hc
  have := congrArg List.length hc
  simp [Dense.reverse] at this
  exact h this

example : Dense.reverse [2, 3] = [3, 2, 0, 0] := rfl

/-! ### C59 -/
variable {R : Type}

theorem inRange_iff {l ds : List Nat} : InRange l ds ↔
    l.length = ds.length ∧ ∀ (i : Nat) (x d : Nat), l[i]? = some x → ds[i]? = some d → x < d := by
  unfold InRange
  rw [List.forall₂_iff_get]
  constructor
  · rintro ⟨h1, h2⟩
    refine ⟨h1, ?_⟩
    intro i x d hx hd
    obtain ⟨hi, rfl⟩ := List.getElem?_eq_some_iff.mp hx
    obtain ⟨hj, rfl⟩ := List.getElem?_eq_some_iff.mp hd
    exact h2 i hi hj
  · rintro ⟨h1, h2⟩
    refine ⟨h1, ?_⟩
    intro i hi hj
    exact h2 i _ _ (List.getElem?_eq_getElem hi) (List.getElem?_eq_getElem hj)

theorem inRange_of_gather {p l ds l' ds' : List Nat} (hp : p.Perm (List.range l.length)) (hl : l.length = ds.length)
    (h1 : gather p l = some l') (h2 : gather p ds = some ds') (h : InRange l' ds') : InRange l ds := by
  rw [inRange_iff] at h ⊢
  refine ⟨hl, ?_⟩
  intro i x d hx hd
  have hi : i < l.length := (List.getElem?_eq_some_iff.mp hx).1
  have hm : i ∈ p := hp.mem_iff.mpr (List.mem_range.mpr hi)
  have hk : p[p.idxOf i]? = some i := by
    rw [List.getElem?_eq_getElem (List.idxOf_lt_length_of_mem hm), List.getElem_idxOf]
  have g1 := gather_getElem? h1 hk
  have g2 := gather_getElem? h2 hk
  exact h.2 (p.idxOf i) x d (by rw [g1, hx]) (by rw [g2, hd])

theorem sumKeep_same [Semiring R] {t : Blk R} {i : Nat} (h : t.dims[i]? = some 1) : SameBlk t (Dense.sumKeep i t) := by
  obtain ⟨hi, h1⟩ := List.getElem?_eq_some_iff.mp h
  constructor
  · apply List.ext_getElem?
    intro j
    simp only [Dense.sumKeep]
    rw [List.getElem?_set]
    split
    · rename_i e; subst e; simp [hi, h1]
    · rfl
  · intro o ho
    have hr := (inRange_iff.mp ho)
    have hio : i < o.length := by rw [hr.1]; exact hi
    have := hr.2 i o[i] 1 (List.getElem?_eq_getElem hio) h
    have h0 : o.set i 0 = o := by
      apply List.ext_getElem?
      intro j
      rw [List.getElem?_set]
      split
      · rename_i e; subst e; simp [hio]; omega
      · rfl
    simp [Dense.sumKeep, List.getD_eq_getElem?_getD, h, h0]

theorem sameBlk_trans {a b c : Blk R} (h1 : SameBlk a b) (h2 : SameBlk b c) : SameBlk a c :=
  ⟨h1.1.trans h2.1, fun o ho => (h1.2 o ho).trans (h2.2 o (h1.1 ▸ ho))⟩

theorem sameBlk_refl (a : Blk R) : SameBlk a a := ⟨rfl, fun _ _ => rfl⟩

theorem shapeLoop_eq [Semiring R] (a b : Blk R) : ∀ (da db cs : List Nat) (t1 t2 : Blk R) (n : Nat),
    gather da a.dims = some cs → gather db b.dims = some cs → SameBlk a t1 → SameBlk b t2 →
    ∃ t1' t2', (da.zip db).foldlM (Dense.shapeStep a b) (t1, t2, n) = .ok (t1', t2', n * cs.prod) ∧
      SameBlk a t1' ∧ SameBlk b t2' := by
  intro da
  induction da with
  | nil =>
    intro db cs t1 t2 n h1 h2 s1 s2
    rw [gather_nil] at h1; cases h1
    have := gather_length h2
    obtain rfl : db = [] := by simpa using this.symm
    exact ⟨t1, t2, by simp [pure, Except.pure], s1, s2⟩
  | cons i da ih =>
    intro db cs t1 t2 n h1 h2 s1 s2
    obtain ⟨s, cs, e1, g1, rfl⟩ := gather_cons.mp h1
    cases db with
    | nil => rw [gather_nil] at h2; cases h2
    | cons j db =>
      obtain ⟨s', cs', e2, g2, e⟩ := gather_cons.mp h2
      cases e
      rw [List.zip_cons_cons, List.foldlM_cons]
      simp only [Dense.shapeStep, e1, e2]
      by_cases hs : s = 1
      · subst hs
        simp only [if_true, bind, Except.bind]
        obtain ⟨t1', t2', h, q1, q2⟩ := ih db cs (Dense.sumKeep i t1) t2 n g1 g2
          (sameBlk_trans s1 (sumKeep_same (by rw [← s1.1]; exact e1))) s2
        exact ⟨t1', t2', by rw [h]; simp, q1, q2⟩
      · simp only [if_neg hs, if_true, bind, Except.bind]
        obtain ⟨t1', t2', h, q1, q2⟩ := ih db cs t1 t2 (n * s) g1 g2 s1 s2
        exact ⟨t1', t2', by rw [h]; simp [mul_assoc], q1, q2⟩

/-- The contraction of two dense tensors: sum over the common index of the contracted dimensions. -/
def denseDot [Semiring R] (a b : Blk R) (da db cs : List Nat) (oa ob : List Nat) : R :=
  ((indices cs).map fun z => a.f (place da oa z) * b.f (place db ob z)).sum

theorem gather_getD {p l l' : List Nat} (h : gather p l = some l') : p.map (fun i => l.getD i 0) = l' := by
  induction p generalizing l' with
  | nil => rw [gather_nil] at h; cases h; rfl
  | cons i p ih =>
    obtain ⟨x, r, h1, h2, rfl⟩ := gather_cons.mp h
    rw [List.map_cons, ih h2, List.getD_eq_getElem?_getD, h1]; rfl

theorem place_inRange {d o z ds sd cs : List Nat} (hd : d.Nodup) (hc : gather d ds = some cs)
    (ho : gather (others d ds.length) ds = some sd) (io : InRange o sd) (iz : InRange z cs) : InRange (place d o z) ds := by
  have lo : o.length = (others d ds.length).length := by rw [List.Forall₂.length_eq io, gather_length ho]
  have lz : z.length = d.length := by rw [List.Forall₂.length_eq iz, gather_length hc]
  have p1 : (others d ds.length ++ d).Perm (List.range ds.length) := by
    rw [← outer_eq]; exact outer_perm hd (gather_lt hc)
  have n : o.length + z.length = ds.length := by
    rw [lo, lz, ← List.length_append]; exact perm_range_length p1
  obtain ⟨g1, g2⟩ := place_gather hd (x := o) (c := z) lz (by rw [n]; exact gather_lt hc) (by rw [n]; exact lo)
  rw [n] at g2
  have pl : (place d o z).length = ds.length := by simp [place, n]
  exact inRange_of_gather (p := others d ds.length ++ d) (by rw [pl]; exact p1) pl (gather_append g2 g1)
    (gather_append ho hc) (List.rel_append io iz)

/-- `tensorgdot` after the loop over the contracted dimensions has left tensors `t1`, `t2` with equal contracted sizes. -/
theorem gdot_core [Semiring R] (c a b t1 t2 : Blk R) (da db sa sb cs : List Nat) (beta alpha : R)
    (hda : da.Nodup) (hdb : db.Nodup) (hlen : da.length = db.length)
    (l1 : t1.dims.length = a.dims.length) (l2 : t2.dims.length = b.dims.length)
    (hloop : (da.zip db).foldlM (Dense.shapeStep a b) (a, b, 1) = .ok (t1, t2, cs.prod))
    (hca : gather da t1.dims = some cs) (hcb : gather db t2.dims = some cs)
    (hoa : gather (others da a.dims.length) t1.dims = some sa) (hob : gather (others db b.dims.length) t2.dims = some sb)
    (hc : c.dims = sa ++ sb) :
    ∃ r, Dense.tensorgdot c a b da db beta alpha = .ok r ∧ r.dims = c.dims ∧
      ∀ oa ob, InRange oa sa → InRange ob sb →
        r.f (oa ++ ob) = beta * c.f (oa ++ ob) + alpha * denseDot t1 t2 da db cs oa ob := by
  have p1 : (outer da a.dims.length ++ da).Perm (List.range a.dims.length) := outer_perm hda (by rw [← l1]; exact gather_lt hca)
  have p2 : (db ++ outer db b.dims.length).Perm (List.range b.dims.length) :=
    List.perm_append_comm.trans (outer_perm hdb (by rw [← l2]; exact gather_lt hcb))
  rw [← outer_eq] at hoa hob
  have e1 : (outer da a.dims.length).map (fun i => t1.dims.getD i 0) = sa := by
    exact gather_getD hoa
  have e2 : (outer db b.dims.length).map (fun i => t2.dims.getD i 0) = sb := by
    exact gather_getD hob
  have q1 : permBlk (outer da a.dims.length ++ da) t1 = .ok ⟨sa ++ cs, fun o => t1.f (ungather (outer da a.dims.length ++ da) o)⟩ := by
    unfold permBlk
    rw [gather_append hoa hca]
    simp only
    rw [if_pos ⟨perm_range_nodup p1, (perm_range_length p1).trans l1.symm⟩]
  have q2 : permBlk (db ++ outer db b.dims.length) t2 = .ok ⟨cs ++ sb, fun o => t2.f (ungather (db ++ outer db b.dims.length) o)⟩ := by
    unfold permBlk
    rw [gather_append hcb hob]
    simp only
    rw [if_pos ⟨perm_range_nodup p2, (perm_range_length p2).trans l2.symm⟩]
  let M : Blk R × Blk R :=
    (⟨[sa.prod, cs.prod], fun o => t1.f (ungather (outer da a.dims.length ++ da) (unflat (sa ++ cs) (flat [sa.prod, cs.prod] o)))⟩,
      ⟨[cs.prod, sb.prod], fun o => t2.f (ungather (db ++ outer db b.dims.length) (unflat (cs ++ sb) (flat [cs.prod, sb.prod] o)))⟩)
  have hmm := mm_eq (R := R) (r := sa.prod) (c := cs.prod) (q := sb.prod) (p := M) rfl rfl
  refine ⟨⟨sa ++ sb, fun o => beta * c.f (unflat (sa ++ sb) (flat [sa.prod, sb.prod] (unflat [sa.prod, sb.prod] (flat (sa ++ sb) o)))) +
    alpha * mmEntry M ((unflat [sa.prod, sb.prod] (flat (sa ++ sb) o)).getD 0 0)
      ((unflat [sa.prod, sb.prod] (flat (sa ++ sb) o)).getD 1 0)⟩, ?_, hc.symm, ?_⟩
  · unfold Dense.tensorgdot Dense.computeShape
    have hmm' : mm (⟨[sa.prod, cs.prod], fun o => t1.f (ungather (outer da a.dims.length ++ da) (unflat (sa ++ cs) (flat [sa.prod, cs.prod] o)))⟩ : Blk R)
      ⟨[cs.prod, sb.prod], fun o => t2.f (ungather (db ++ outer db b.dims.length) (unflat (cs ++ sb) (flat [cs.prod, sb.prod] o)))⟩ = _ := hmm
    simp only [hlen, not_true, if_false, hloop, bind, Except.bind, hda, hdb, and_self, e1, e2, hc, one_mul, q1, q2,
      reshapeBlk, List.prod_cons, List.prod_nil, mul_one, List.prod_append, if_true, Dense.addmmScaled, hmm']
  · intro oa ob hoa' hob'
    have hlt := flat_lt hob'
    have hq : unflat [sa.prod, sb.prod] (flat (sa ++ sb) (oa ++ ob)) = [flat sa oa, flat sb ob] := by
      simp only [flat_append (List.Forall₂.length_eq hoa'), unflat, List.prod_nil, Nat.div_one, List.prod_singleton]
      rw [Nat.mul_comm, Nat.mul_add_div (by omega), Nat.mul_add_mod, Nat.mod_eq_of_lt hlt, Nat.div_eq_of_lt hlt]
      simp
    have hflat (m n x y : Nat) : flat [m, n] [x, y] = x * n + y := by simp [flat]
    simp only [hq, hflat, unflat_append_flat hoa' hob', List.getD_cons_zero, List.getD_cons_succ]
    congr 2
    unfold mmEntry denseDot
    rw [indices_eq, allIdx_eq, List.map_map]
    have hM : M.1.dims.getD 1 0 = cs.prod := rfl
    rw [hM]
    apply sum_congr'
    intro k hk
    have hk := List.mem_range.mp hk
    have hz := unflat_inRange hk
    have hfz := flat_unflat hk
    simp only [Function.comp]
    generalize unflat cs k = z at *
    subst hfz
    simp only [M, hflat, unflat_append_flat hoa' hz, unflat_append_flat hz hob']
    have la : oa.length = (outer da a.dims.length).length := by
      rw [List.Forall₂.length_eq hoa', gather_length hoa]
    have lb : ob.length = (outer db b.dims.length).length := by
      rw [List.Forall₂.length_eq hob', gather_length hob]
    have lz1 : z.length = da.length := by rw [List.Forall₂.length_eq hz, gather_length hca]
    have lz2 : z.length = db.length := by rw [List.Forall₂.length_eq hz, gather_length hcb]
    have na : oa.length + z.length = a.dims.length := by
      rw [la, lz1, ← List.length_append]; exact perm_range_length p1
    have nb : ob.length + z.length = b.dims.length := by
      rw [lb, lz2, Nat.add_comm, ← List.length_append]; exact perm_range_length p2
    obtain ⟨g1, g2⟩ := place_gather hda (x := oa) (c := z) lz1 (by rw [na]; exact l1 ▸ gather_lt hca)
      (by rw [na, ← outer_eq]; exact la)
    obtain ⟨g3, g4⟩ := place_gather hdb (x := ob) (c := z) lz2 (by rw [nb]; exact l2 ▸ gather_lt hcb)
      (by rw [nb, ← outer_eq]; exact lb)
    rw [na, ← outer_eq] at g2
    rw [nb, ← outer_eq] at g4
    have pla : (place da oa z).length = a.dims.length := by simp [place, na]
    have plb : (place db ob z).length = b.dims.length := by simp [place, nb]
    have p1' := p1
    have p2' := p2
    rw [← pla] at p1'
    rw [← plb] at p2'
    have ga := gather_append g2 g1
    have gb := gather_append g3 g4
    have ra : ungather (outer da a.dims.length ++ da) (oa ++ z) = place da oa z := ungather_gather (pla ▸ p1') (pla ▸ ga)
    have rb : ungather (db ++ outer db b.dims.length) (z ++ ob) = place db ob z := ungather_gather (plb ▸ p2') (plb ▸ gb)
    rw [ra, rb]

/-- What `tensorgdot` computes: for tensors `a`, `b` with contracted dimensions of equal sizes `cs` and other
dimensions of sizes `sa`, `sb`, and `c` of sizes `sa ++ sb`, the result has the sizes of `c` and entries
`beta * c + alpha * (a . b)`. Contracted dimensions of size one against another size, which the code broadcasts, are
treated in `C59_broadcast_partial`. Missing: the documented roles of `alpha` and `beta` (`C59_roles_fails`). -/
theorem C59_tensorgdot_partial [Semiring R] (c a b : Blk R) (da db sa sb cs : List Nat) (beta alpha : R)
    (hda : da.Nodup) (hdb : db.Nodup) (hca : gather da a.dims = some cs) (hcb : gather db b.dims = some cs)
    (hoa : gather (others da a.dims.length) a.dims = some sa) (hob : gather (others db b.dims.length) b.dims = some sb)
    (hc : c.dims = sa ++ sb) :
    ∃ r, Dense.tensorgdot c a b da db beta alpha = .ok r ∧ r.dims = c.dims ∧
      ∀ oa ob, InRange oa sa → InRange ob sb →
        r.f (oa ++ ob) = beta * c.f (oa ++ ob) + alpha * denseDot a b da db cs oa ob := by
  obtain ⟨t1, t2, hloop, s1, s2⟩ := shapeLoop_eq a b da db cs a b 1 hca hcb (sameBlk_refl a) (sameBlk_refl b)
  have hlen : da.length = db.length := by rw [← gather_length hca, ← gather_length hcb]
  obtain ⟨r, e1, e2, e3⟩ := gdot_core c a b t1 t2 da db sa sb cs beta alpha hda hdb hlen (by rw [← s1.1]) (by rw [← s2.1])
    (by rw [hloop, one_mul]) (by rw [← s1.1]; exact hca) (by rw [← s2.1]; exact hcb) (by rw [← s1.1]; exact hoa)
    (by rw [← s2.1]; exact hob) hc
  refine ⟨r, e1, e2, ?_⟩
  intro oa ob hoa' hob'
  rw [e3 oa ob hoa' hob']
  congr 2
  unfold denseDot
  apply sum_congr'
  intro z hz
  have hz : InRange z cs := by
    rw [indices_eq, allIdx_eq] at hz
    obtain ⟨k, hk, rfl⟩ := List.mem_map.mp hz
    exact unflat_inRange (List.mem_range.mp hk)
  have ia : InRange (place da oa z) a.dims := place_inRange hda hca hoa hoa' hz
  have ib : InRange (place db ob z) b.dims := place_inRange hdb hcb hob hob' hz
  rw [← s1.2 _ ia, ← s2.2 _ ib]

/-- A 2x3 matrix times a 3x2 matrix, contracted over dimension 1 of the first and 0 of the second. -/
example : ∃ r, Dense.tensorgdot (⟨[2, 2], fun o => o.sum⟩ : Blk ℤ) ⟨[2, 3], fun o => o.sum⟩ ⟨[3, 2], fun o => o.sum + 1⟩
    [1] [0] 2 5 = .ok r ∧ r.f [1, 0] = 2 * 1 + 5 * (1 * 1 + 2 * 2 + 3 * 3) := by
  obtain ⟨r, h1, -, h2⟩ := C59_tensorgdot_partial (⟨[2, 2], fun o => o.sum⟩ : Blk ℤ) ⟨[2, 3], fun o => o.sum⟩
    ⟨[3, 2], fun o => o.sum + 1⟩ [1] [0] [2] [2] [3] 2 5 (by simp) (by simp) rfl rfl rfl rfl rfl
  refine ⟨r, h1, ?_⟩
  have := h2 [1] [0] (by simp [InRange]) (by simp [InRange])
  simp only [List.cons_append, List.nil_append] at this
  rw [this]
  decide

/-- C59 fails: the header documents `alpha*C + beta*(A.B)`; with `C = 1`, `A.B = 0`, `beta = 2`, `alpha = 3` the
result is 2. -/
theorem C59_roles_fails : ∃ r, Dense.tensorgdot (⟨[], fun _ => 1⟩ : Blk ℤ) ⟨[], fun _ => 1⟩ ⟨[], fun _ => 0⟩ [] [] 2 3 = .ok r ∧
    r.f [] = 2 ∧ r.f [] ≠ 3 * 1 + 2 * denseDot (⟨[], fun _ => 1⟩ : Blk ℤ) ⟨[], fun _ => 0⟩ [] [] [] [] [] := by
  obtain ⟨r, h1, -, h2⟩ := C59_tensorgdot_partial (⟨[], fun _ => 1⟩ : Blk ℤ) ⟨[], fun _ => 1⟩ ⟨[], fun _ => 0⟩
    [] [] [] [] [] 2 3 (by simp) (by simp) rfl rfl rfl rfl rfl
  have := h2 [] [] (by simp [InRange]) (by simp [InRange])
  simp only [List.append_nil] at this
  have h3 : r.f [] = 2 := by rw [this]; decide
  exact ⟨r, h1, h3, by rw [h3]; decide⟩

/-- `tensorgdot` refuses lists of contracted dimensions of different lengths, repeated dimensions and a `c` of the wrong
sizes. -/
theorem C59_reject_length [Semiring R] (c a b : Blk R) (da db : List Nat) (beta alpha : R) (h : da.length ≠ db.length) :
    Dense.tensorgdot c a b da db beta alpha = Res.throw .runtimeError := by
  unfold Dense.tensorgdot Dense.computeShape
  rw [if_pos h]
  rfl

example : Dense.tensorgdot (⟨[], fun _ => 1⟩ : Blk ℤ) ⟨[2], fun _ => 1⟩ ⟨[2], fun _ => 0⟩ [0] [] 1 1 = Res.throw .runtimeError :=
  C59_reject_length _ _ _ _ _ _ _ (by simp)

/-- `tensorgdot` refuses a `c` of the wrong sizes. -/
theorem C59_reject_sizes [Semiring R] (c a b : Blk R) (da db sa sb cs : List Nat) (beta alpha : R)
    (hda : da.Nodup) (hdb : db.Nodup) (hca : gather da a.dims = some cs) (hcb : gather db b.dims = some cs)
    (hoa : gather (others da a.dims.length) a.dims = some sa) (hob : gather (others db b.dims.length) b.dims = some sb)
    (hc : c.dims ≠ sa ++ sb) : Dense.tensorgdot c a b da db beta alpha = Res.throw .runtimeError := by
  obtain ⟨t1, t2, hloop, s1, s2⟩ := shapeLoop_eq a b da db cs a b 1 hca hcb (sameBlk_refl a) (sameBlk_refl b)
  have hlen : da.length = db.length := by rw [← gather_length hca, ← gather_length hcb]
  have e1 : (outer da a.dims.length).map (fun i => t1.dims.getD i 0) = sa := by
    rw [← s1.1]; exact gather_getD hoa
  have e2 : (outer db b.dims.length).map (fun i => t2.dims.getD i 0) = sb := by
    rw [← s2.1]; exact gather_getD hob
  unfold Dense.tensorgdot Dense.computeShape
  simp only [hlen, not_true, if_false, hloop, bind, Except.bind, hda, hdb, and_self, e1, e2, if_pos (Ne.symm hc)]
  rfl

example : Dense.tensorgdot (⟨[3], fun _ => 1⟩ : Blk ℤ) ⟨[2], fun _ => 1⟩ ⟨[2], fun _ => 0⟩ [0] [0] 1 1 = Res.throw .runtimeError :=
  C59_reject_sizes _ _ _ _ _ [] [] [2] _ _ (by simp) (by simp) rfl rfl rfl rfl (by simp)

end QuantiT
