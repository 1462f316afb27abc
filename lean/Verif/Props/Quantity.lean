import Verif.Lemmas.Quantity
/-
Properties C01-C07: conserved quantities.
-/
namespace QuantiT
open Spec

/-! ## C01 -/

/-- Values of `C<N>` a program can build: default construction, construction from an `int16_t`
(except the arguments of C02's defect, `v = -kN` with `k ≥ 2`), (conditional) composition, inversion. -/
inductive CNReach (N : Nat) : CN N → Prop
  | dflt : CNReach N CN.neutral
  | ctor (v : Int) (h0 : -32768 ≤ v) (h1 : v ≤ 32767) (hv : ¬ (v < 0 ∧ v ≠ -(N : Int) ∧ (N : Int) ∣ v)) :
      CNReach N (CN.ofInt v)
  | op {a b} (k : Bool) : CNReach N a → CNReach N b → CNReach N (a.opCond b k)
  | inv {a} : CNReach N a → CNReach N a.inverse

/-- C01 for cycle lengths up to 32768 (the documentation promises "less than 2^16-1"; for every longer
cycle the claim is false, see `C01_cyclic_group_fails`): stored values stay below N, composition is
addition modulo N, commutative, associative, with `C<N>()` neutral and `inverse()` inverse. -/
theorem C01_cyclic_group_partial (N : Nat) (h0 : 0 < N) (hN : N ≤ 32768) (a b c : CN N)
    (ha : a.val < N) (hb : b.val < N) (hc : c.val < N) :
    (a.op b).val = (a.val + b.val) % N ∧ (a.op b).val < N ∧ a.inverse.val < N ∧
    a.op b = b.op a ∧ (a.op b).op c = a.op (b.op c) ∧
    a.op CN.neutral = a ∧ CN.neutral.op a = a ∧
    a.op a.inverse = CN.neutral ∧ a.inverse.op a = CN.neutral ∧
    a.opCond b false = a := by
  have hn : (CN.neutral : CN N).val < N := h0
  have hi := CN.inverse_lt (by omega) ha
  exact ⟨CN.op_val hN ha hb, CN.op_lt hN ha hb, hi, CN.op_comm hN ha hb, CN.op_assoc hN ha hb hc,
    CN.op_neutral hN ha, by rw [CN.op_comm hN hn ha, CN.op_neutral hN ha], CN.op_inverse hN ha,
    by rw [CN.op_comm hN hi ha, CN.op_inverse hN ha], CN.opCond_false ha (by omega)⟩

example : (CN.ofInt 2 : CN 3).val < 3 ∧ ((CN.ofInt 2 : CN 3).op (CN.ofInt 2)).val = 1 := by decide

/-! ## C02 -/

/-- C02 for every argument except the negative multiples of N other than -N itself. -/
theorem C02_signed_ctor_partial (N : Nat) (h0 : 0 < N) (hN : N < 65536) (v : Int)
    (hlo : -32768 ≤ v) (hhi : v ≤ 32767) (hv : ¬ (v < 0 ∧ v ≠ -(N : Int) ∧ (N : Int) ∣ v)) :
    ((CN.ofInt v : CN N).val : Int) = v % N ∧ (CN.ofInt v : CN N).val < N := by
  have hNpos : (0 : Int) < N := by omega
  have hm0 := Int.emod_nonneg v (show (N : Int) ≠ 0 by omega)
  have hm1 := Int.emod_lt_of_pos v hNpos
  have key : ((CN.ofInt v : CN N).val : Int) = v % N := by
    simp only [CN.ofInt]
    by_cases hneg : v < 0
    · by_cases heq : v = -(N : Int)
      · subst heq; simp [u16]
      · have hdvd : ¬ (N : Int) ∣ v := fun h => hv ⟨hneg, heq, h⟩
        have hne : v % N ≠ 0 := fun h => hdvd (Int.dvd_of_emod_eq_zero h)
        have ht : Int.tmod v N = v % N - N := by
          rw [Int.tmod_eq_emod, if_neg]
          · simp
          · simp; exact ⟨hneg, hdvd⟩
        rw [ht]
        simp only [ne_eq, heq, not_false_eq_true, if_true, hneg, Int.one_mul]
        rw [u16_of_range] <;> omega
    · have ht : Int.tmod v N = v % N := Int.tmod_eq_emod_of_nonneg (by omega)
      rw [ht, if_neg hneg, Int.mul_zero, Int.zero_mul, Int.zero_add]
      exact u16_of_range hm0 (by omega)
  exact ⟨key, by omega⟩

example : ((CN.ofInt (-2) : CN 3).val : Int) = -2 % 3 := by decide

/-- C02 is false of the code: for every negative multiple of N other than -N the constructor stores N,
which is not a residue; two arguments with equal residues then compare different. -/
theorem C02_signed_ctor_fails (N : Nat) (h0 : 0 < N) (hN : N < 65536) (v : Int)
    (hv : v < 0) (hne : v ≠ -(N : Int)) (hd : (N : Int) ∣ v) :
    (CN.ofInt v : CN N).val = N ∧ (CN.ofInt v : CN N) ≠ CN.ofInt 0 := by
  have ht : Int.tmod v N = 0 := Int.tmod_eq_zero_of_dvd hd
  have h1 : (CN.ofInt v : CN N).val = N := by
    simp only [CN.ofInt, ht, ne_eq, hne, not_false_eq_true, if_true, hv]
    unfold u16; omega
  refine ⟨h1, fun h => ?_⟩
  rw [h] at h1
  simp [CN.ofInt, u16] at h1; omega

/-- The literal instance of the defect: `C<2>(-4)`, and its effect on the neutral element law. -/
example : (CN.ofInt (-4) : CN 2).val = 2 ∧ (CN.ofInt (-4) : CN 2).op CN.neutral ≠ CN.ofInt (-4) := by decide

/-- Every value a program can build (outside the defect of C02) is a residue below N. -/
theorem C01_reachable_values_valid_partial (N : Nat) (h0 : 0 < N) (hN : N ≤ 32768) (a : CN N)
    (h : CNReach N a) : a.val < N := by
  induction h with
  | dflt => exact h0
  | ctor v h1 h2 hv => exact (C02_signed_ctor_partial N h0 (by omega) v h1 h2 hv).2
  | op k _ _ iha ihb =>
    cases k
    · rw [CN.opCond_false iha (by omega)]; exact iha
    · exact CN.op_lt hN iha ihb
  | inv _ iha => exact CN.inverse_lt (by omega) iha

example : CNReach 5 (((CN.ofInt (-7) : CN 5).opCond (CN.ofInt 4) true).inverse) :=
  .inv (.op _ (.ctor _ (by decide) (by decide) (by decide)) (.ctor _ (by decide) (by decide) (by decide)))

/-- C01 is false of the code for every cycle length above 32768 although the class accepts it:
with `b = C<N>(-1)`, `(b + b) + b.inverse()` is not `b + (b + b.inverse())`. -/
theorem C01_cyclic_group_fails (N : Nat) (h : 32768 < N) (hN : N < 65536) :
    ∃ b : CN N, CNReach N b ∧ b.val < N ∧
      (b.op b).val ≠ (b.val + b.val) % N ∧
      (b.op b).op b.inverse ≠ b.op (b.op b.inverse) := by
  have hb : ((CN.ofInt (-1) : CN N).val : Int) = N - 1 := by
    have h1 : ¬ ((N : Int) ∣ -1) := by
      intro hd; have := Int.le_of_dvd (by decide) (Int.dvd_neg.mpr hd); omega
    have := (C02_signed_ctor_partial N (by omega) hN (-1) (by decide) (by decide) (by simp [h1])).1
    rw [this, ← Int.add_emod_right, Int.emod_eq_of_lt] <;> omega
  refine ⟨CN.ofInt (-1), .ctor _ (by decide) (by decide) ?_, by omega, ?_, ?_⟩
  · rintro ⟨_, _, hd⟩; have := Int.le_of_dvd (by decide) (Int.dvd_neg.mpr hd); omega
  · generalize (CN.ofInt (-1) : CN N) = b at *
    have hbv : b.val = N - 1 := by omega
    have : (b.val + b.val) % N = N - 2 := by
      rw [Nat.mod_eq_sub_mod (by omega), Nat.mod_eq_of_lt] <;> omega
    rw [this]
    simp only [CN.op, CN.opCond, u16, if_true, Int.one_mul, hbv]
    split <;> omega
  · generalize (CN.ofInt (-1) : CN N) = b at *
    have hbv : b.val = N - 1 := by omega
    intro heq
    have heq' := congrArg CN.val heq
    simp only [CN.op, CN.opCond, CN.inverse, u16, if_true, Int.one_mul, hbv] at heq'
    have hne : N - 1 ≠ 0 := by omega
    simp only [ne_eq, hne, not_false_eq_true, if_true, Int.one_mul] at heq'
    split at heq' <;> split at heq' <;> split at heq' <;> split at heq' <;> omega

/-! ## C03 -/

/-- C03: `Z` is exact whenever the integer result fits in 16 bits, and always an abelian group. -/
theorem C03_integer_charge (a b c : ZQ) (ha : -32768 ≤ a.val ∧ a.val ≤ 32767) :
    (-32768 ≤ a.val + b.val → a.val + b.val ≤ 32767 → (a.op b).val = a.val + b.val) ∧
    (-32767 ≤ a.val → a.inverse.val = -a.val) ∧
    (-32768 ≤ (a.op b).val ∧ (a.op b).val ≤ 32767) ∧
    (-32768 ≤ a.inverse.val ∧ a.inverse.val ≤ 32767) ∧
    a.op b = b.op a ∧ (a.op b).op c = a.op (b.op c) ∧
    a.op ZQ.neutral = a ∧ ZQ.neutral.op a = a ∧ a.op a.inverse = ZQ.neutral ∧ a.inverse.op a = ZQ.neutral ∧
    a.opCond b false = a := by
  refine ⟨fun h1 h2 => ?_, fun h1 => ?_, ZQ.i16_range _, ZQ.i16_range _, ZQ.op_comm a b, ZQ.op_assoc a b c,
    ZQ.op_neutral ha, by rw [ZQ.op_comm, ZQ.op_neutral ha], ZQ.op_inverse a,
    by rw [ZQ.op_comm, ZQ.op_inverse], ZQ.opCond_false ha⟩
  · rw [ZQ.op_val]; exact ZQ.i16_id h1 h2
  · exact ZQ.i16_id (by omega) (by omega)

example : (ZQ.ofInt 32767).op (ZQ.ofInt 1) = ZQ.ofInt (-32768) ∧
    (ZQ.ofInt (-300)).op (ZQ.ofInt 7) = ⟨-293⟩ := by decide

/-- No reordering of a product of `Z` charges changes the result, wrap-around included. -/
theorem C03_product_order_irrelevant (l l' : List ZQ) (h : l.Perm l') (a : ZQ) :
    l.foldl ZQ.op a = l'.foldl ZQ.op a := by
  induction h generalizing a with
  | nil => rfl
  | cons x _ ih => exact ih _
  | swap x y l => simp only [List.foldl_cons]; rw [ZQ.op_assoc, ZQ.op_assoc, ZQ.op_comm y x]
  | trans _ _ ih1 ih2 => rw [ih1, ih2]

/-! ## C04 -/

/-- Composition of two composites of equal type is componentwise composition. -/
theorem C04_composite_componentwise (a b : Quantity) (ht : a.type = b.type) (ha : QValid a) (hb : QValid b) :
    ∃ r, a.op b = .ok r ∧ a.opTo b = .ok r ∧ r.type = a.type ∧ QValid r ∧ r.length = a.length ∧
      ∀ (i : Nat) (x y z : Comp), a[i]? = some x → b[i]? = some y → r[i]? = some z →
        z.getVal = compose x.type x.getVal y.getVal := by
  have hlen : a.length = b.length := by simpa [Quantity.type] using congrArg List.length ht
  refine ⟨_, Quantity.op_ok ht, by simp [Quantity.opTo, Quantity.cast, ht, Quantity.opL],
    Quantity.type_opL ht, Quantity.valid_opL ht ha hb, by simp [Quantity.opL, hlen], ?_⟩
  intro i x y z hx hy hz
  simp only [Quantity.opL, List.getElem?_zipWith, hx, hy, Option.some.injEq] at hz
  subst hz
  apply Comp.opCond_getVal _ (ha x (List.mem_of_getElem? hx)) (hb y (List.mem_of_getElem? hy))
  have := congrArg (·[i]?) ht
  simpa [Quantity.type, hx, hy] using this

/-- Composites of one type form an abelian group. -/
theorem C04_composite_group (a b c : Quantity) (hab : a.type = b.type) (hbc : b.type = c.type)
    (ha : QValid a) (hb : QValid b) (hc : QValid c) :
    (a.op b = b.op a) ∧
    (do let ab ← a.op b; Quantity.op ab c) = (do let bc ← b.op c; a.op bc) ∧
    a.op a.neutral = .ok a ∧ a.op a.inverse = .ok a.neutral ∧ a.neutral = b.neutral ∧
    a.inverse.type = a.type ∧ QValid a.inverse ∧
    (∀ (i : Nat) (x y : Comp), a[i]? = some x → a.inverse[i]? = some y → y.getVal = invert x.type x.getVal) ∧
    (∀ y ∈ a.neutral, y.getVal = 0) := by
  refine ⟨?_, ?_, ?_, ?_, ?_, Quantity.type_inverse a, Quantity.valid_inverse ha, ?_, ?_⟩
  · rw [Quantity.op_ok hab, Quantity.op_ok hab.symm, Quantity.opL_comm hab ha hb]
  · rw [Quantity.op_ok hab, Quantity.op_ok hbc]
    show Quantity.op _ c = Quantity.op a _
    rw [Quantity.op_ok (by rw [Quantity.type_opL hab, hab, hbc]), Quantity.op_ok (by rw [Quantity.type_opL hbc, hab]),
      Quantity.opL_assoc hab hbc ha hb hc]
  · rw [Quantity.op_ok (Quantity.type_neutral a).symm, Quantity.opL_neutral ha]
  · rw [Quantity.op_ok (Quantity.type_inverse a).symm, Quantity.opL_inverse ha]
  · simp only [Quantity.neutral, hab]
  · intro i x y hx hy
    simp only [Quantity.inverse, List.getElem?_map, hx, Option.map_some, Option.some.injEq] at hy
    subst hy; exact Comp.inverse_getVal (ha x (List.mem_of_getElem? hx))
  · intro y hy
    simp only [Quantity.neutral, List.mem_map] at hy
    obtain ⟨g, _, rfl⟩ := hy
    cases g <;> rfl

/-- `==` holds iff all components are equal; `<` is the lexicographic strict total order and agrees
with `==`; `>` is `<` swapped. -/
theorem C04_composite_order (a b c : Quantity) (hab : a.type = b.type) (hbc : b.type = c.type) :
    (a.eq b = .ok true ↔ a.map Comp.getVal = b.map Comp.getVal) ∧
    (a.ne b = .ok true ↔ a.map Comp.getVal ≠ b.map Comp.getVal) ∧
    (a.lt b = .ok true ↔ lexLt (a.map Comp.getVal) (b.map Comp.getVal)) ∧
    a.gt b = b.lt a ∧
    a.lt a = .ok false ∧
    (a.lt b = .ok true → b.lt c = .ok true → a.lt c = .ok true) ∧
    (a.lt b = .ok true ∨ a.eq b = .ok true ∨ b.lt a = .ok true) ∧
    ¬ (a.lt b = .ok true ∧ a.eq b = .ok true) ∧ ¬ (a.lt b = .ok true ∧ b.lt a = .ok true) := by
  have hlt : ∀ {x y : Quantity}, x.type = y.type →
      (x.lt y = .ok true ↔ lexLt (x.map Comp.getVal) (y.map Comp.getVal)) := by
    intro x y h; rw [← Quantity.ltTuple_iff]; simp [Quantity.lt, Quantity.cast, h]
  have heq : a.eq b = .ok true ↔ a.map Comp.getVal = b.map Comp.getVal := by
    simp only [Quantity.eq, Quantity.cast, hab, if_true, Except.ok.injEq, decide_eq_true_eq]
    exact ⟨fun h => by rw [h], Quantity.eq_of_vals hab⟩
  have hlen : (a.map Comp.getVal).length = (b.map Comp.getVal).length := by
    simpa [Quantity.type] using congrArg List.length hab
  refine ⟨heq, ?_, hlt hab, ?_, ?_, ?_, ?_, ?_, ?_⟩
  · simp only [Quantity.ne, Quantity.cast, hab, if_true, Except.ok.injEq, Bool.not_eq_true', decide_eq_false_iff_not]
    exact not_congr ⟨fun h => by rw [h], Quantity.eq_of_vals hab⟩
  · simp [Quantity.gt, Quantity.lt, Quantity.cast, hab]
  · have : ¬ Quantity.ltTuple a a = true := by rw [Quantity.ltTuple_iff]; exact lexLt_irrefl _
    simp only [Quantity.lt, Quantity.cast, if_true]; simpa using this
  · rw [hlt hab, hlt hbc, hlt (hab.trans hbc)]; exact lexLt_trans
  · rw [hlt hab, hlt hab.symm, heq]; exact lexLt_total hlen
  · rw [hlt hab, heq]; rintro ⟨h1, h2⟩; rw [h2] at h1; exact lexLt_irrefl _ h1
  · rw [hlt hab, hlt hab.symm]; rintro ⟨h1, h2⟩; exact lexLt_irrefl _ (lexLt_trans h1 h2)

/-- Mixing two different composite types throws `bad_cast`, for every binary operation. -/
theorem C04_composite_type_mismatch (a b : Quantity) (h : a.type ≠ b.type) (k : Bool) :
    a.op b = Res.throw .badCast ∧ a.opCond b k = Res.throw .badCast ∧ a.opTo b = Res.throw .badCast ∧
    a.eq b = Res.throw .badCast ∧ a.ne b = Res.throw .badCast ∧ a.lt b = Res.throw .badCast ∧
    a.gt b = Res.throw .badCast ∧ a.distance2 b = Res.throw .badCast := by
  simp [Quantity.op, Quantity.opCond, Quantity.opTo, Quantity.eq, Quantity.ne, Quantity.lt, Quantity.gt,
    Quantity.distance2, Quantity.cast, h]

/-- A non-trivial instance of the C04 hypotheses: `quantity<C<2>,Z>(0,3)` and `(1,-1)`. -/
example : let a : Quantity := [.c 2 (CN.ofInt 0), .z (ZQ.ofInt 3)]
    let b : Quantity := [.c 2 (CN.ofInt 1), .z (ZQ.ofInt (-1))]
    a.type = b.type ∧ QValid a ∧ QValid b ∧ a.op b = .ok [.c 2 (CN.ofInt 1), .z (ZQ.ofInt 2)] ∧
    a.lt b = .ok true := by
  refine ⟨by decide, ?_, ?_, by decide, by decide⟩ <;> simp [QValid, CompValid] <;> decide

/-- A non-trivial mismatch: `(C<2>,Z)` against `(Z,C<2>)`. -/
example : Quantity.type [.c 2 (CN.ofInt 0), .z (ZQ.ofInt 3)] ≠ Quantity.type [.z (ZQ.ofInt 0), .c 2 (CN.ofInt 1)] := by
  decide

/-! ## C05 -/

theorem distance2_sum_nonneg : ∀ (a b : Quantity) (acc : Int), 0 ≤ acc →
    acc ≤ (List.zipWith Comp.distance2 a b).foldl (· + ·) acc
  | [], _, acc, _ => by simp
  | _ :: _, [], acc, _ => by simp
  | x :: a, y :: b, acc, h => by
    simp only [List.zipWith_cons_cons, List.foldl_cons]
    have h1 : 0 ≤ Comp.distance2 x y := by
      simp only [Comp.distance2, distance2Impl]
      rcases Int.le_total 0 (x.getVal - y.getVal) with h | h
      · exact Int.mul_nonneg h h
      · exact Int.mul_nonneg_of_nonpos_of_nonpos h h
    exact Int.le_trans (by omega) (distance2_sum_nonneg a b (acc + Comp.distance2 x y) (by omega))

theorem distance2_sum_zero : ∀ (a b : Quantity), a.type = b.type →
    ((List.zipWith Comp.distance2 a b).foldl (· + ·) 0 = 0 ↔ a = b)
  | [], [], _ => by simp
  | [], _ :: _, h => by simp [Quantity.type] at h
  | _ :: _, [], h => by simp [Quantity.type] at h
  | x :: a, y :: b, h => by
    simp only [Quantity.cons_type, List.cons.injEq] at h
    simp only [List.zipWith_cons_cons, List.foldl_cons, List.cons.injEq, Int.zero_add]
    have hsq : 0 ≤ Comp.distance2 x y ∧ (Comp.distance2 x y = 0 ↔ x = y) := by
      simp only [Comp.distance2, distance2Impl]
      refine ⟨?_, ?_⟩
      · rcases Int.le_total 0 (x.getVal - y.getVal) with h | h
        · exact Int.mul_nonneg h h
        · exact Int.mul_nonneg_of_nonpos_of_nonpos h h
      · rw [Int.mul_eq_zero, or_self]
        exact ⟨fun e => Comp.eq_of_val h.1 (by omega), fun e => by rw [e]; omega⟩
    by_cases h0 : Comp.distance2 x y = 0
    · rw [h0, distance2_sum_zero a b h.2]; simp [hsq.2.mp h0]
    · have := distance2_sum_nonneg a b (Comp.distance2 x y) hsq.1
      constructor
      · intro e; omega
      · intro e; exact absurd (hsq.2.mpr e.1) h0

/-- C05: the squared distance of two composites of one type is defined, symmetric, never negative, and
zero exactly for equal charges. -/
theorem C05_distance_zero_iff (a b : Quantity) (h : a.type = b.type) :
    ∃ d, a.distance2 b = .ok d ∧ b.distance2 a = .ok d ∧ 0 ≤ d ∧ (d = 0 ↔ a = b) := by
  refine ⟨_, by simp [Quantity.distance2, Quantity.cast, h], ?_,
    distance2_sum_nonneg a b 0 (Int.le_refl 0), distance2_sum_zero a b h⟩
  simp only [Quantity.distance2, Quantity.cast, h, if_true]
  congr 2
  rw [List.zipWith_comm]
  congr 1
  funext x y
  simp only [Comp.distance2, distance2Impl]
  rw [← Int.neg_sub, Int.neg_mul_neg]

/-- C05 for the simple groups (`C<N>` and `Z` have the same formula on `get_val()`). -/
theorem C05_simple_distance (a b : Comp) (h : a.type = b.type) :
    0 ≤ a.distance2 b ∧ a.distance2 b = b.distance2 a ∧ (a.distance2 b = 0 ↔ a = b) := by
  obtain ⟨d, h1, h2, h3, h4⟩ := C05_distance_zero_iff [a] [b] (by simp [Quantity.type, h])
  simp only [Quantity.distance2, Quantity.cast, Quantity.type, List.map_cons, List.map_nil, h, if_true,
    List.zipWith_cons_cons, List.zipWith_nil_left, List.foldl_cons, List.foldl_nil, Int.zero_add,
    Except.ok.injEq] at h1 h2
  subst h1
  exact ⟨h3, h2.symm, by simpa using h4⟩

example : (Quantity.distance2 [.c 2 (CN.ofInt 0), .z (ZQ.ofInt 3)] [.c 2 (CN.ofInt 1), .z (ZQ.ofInt (-1))]) = .ok 17 := by
  decide

/-! ## C06 -/

/-- C06, the assignments that do give an equal independent value whatever was held before: from a
reference to a quantity, and by move; the copy assignment does if both sides hold the same type.
Missing: copy assignment from an `any_quantity` of another type (see `C06_assignment_fails`). -/
theorem C06_assignment_partial (a b : AnyQ) (q : Quantity) :
    (a.assignRef q).impl = some q ∧ (a.assignMove b).1 = b ∧ (AnyQ.ofQuantity q).copy.impl = some q ∧
    (∀ qa, a.impl = some qa → b.impl = some q → qa.type = q.type →
      a.assignCopy b = .ok b) := by
  refine ⟨rfl, rfl, rfl, ?_⟩
  intro qa ha hb ht
  simp only [AnyQ.assignCopy, ha, hb, Quantity.cast, ht, if_true]
  cases b; simp_all

/-- C06 is false of the code: copy assignment between different held types always throws `bad_cast`,
although cquantity.h:109-110 documents that it can change the type. -/
theorem C06_assignment_fails (a b : AnyQ) (qa qb : Quantity) (ha : a.impl = some qa) (hb : b.impl = some qb)
    (ht : qa.type ≠ qb.type) : a.assignCopy b = Res.throw .badCast := by
  simp [AnyQ.assignCopy, ha, hb, Quantity.cast, ht]

/-- Witness: a default constructed `any_quantity` cannot be copy-assigned a `Z` charge. -/
example : AnyQ.default.assignCopy (AnyQ.ofQuantity [.z (ZQ.ofInt 3)]) = Res.throw .badCast := by decide
example : (AnyQ.ofQuantity [.z (ZQ.ofInt 1)]).assignCopy (AnyQ.ofQuantity [.z (ZQ.ofInt 3)])
    = .ok (AnyQ.ofQuantity [.z (ZQ.ofInt 3)]) := by decide

/-! ## C07 -/

/-- C07: for sections laid out one after the other in the packed list and any permutation of the section
numbers, `permute` returns the sections in permuted order, each unchanged, and the same charges with
the same multiplicities. -/
theorem C07_permute_sections {α} (dflt : α) (secs permuted : List (List α)) (perm : List Nat)
    (hperm : perm.Perm (List.range secs.length))
    (hsel : perm.map (fun d => secs[d]?) = permuted.map some) :
    qvPermute dflt secs.flatten perm (secs.map List.length) = .ok permuted.flatten ∧
    permuted.flatten.Perm secs.flatten := by
  have hp : permuted.Perm secs := by
    have h1 : (perm.map (fun d => secs[d]?)).Perm ((List.range secs.length).map (fun d => secs[d]?)) :=
      hperm.map _
    have h2 : (List.range secs.length).map (fun d => secs[d]?) = secs.map some := by
      apply List.ext_getElem?; intro i
      simp only [List.getElem?_map, List.range_eq_range']
      by_cases h : i < secs.length
      · simp [h]
      · simp [h]
    rw [hsel, h2] at h1
    have h3 := h1.filterMap id
    simpa [List.filterMap_map] using h3
  have hf : permuted.flatten.Perm secs.flatten := hp.flatten
  refine ⟨?_, hf⟩
  have := permuteOuter_spec secs perm permuted 0 [] (List.replicate secs.flatten.length dflt) hsel rfl
    (by simp [hf.length_eq])
  simp only [List.nil_append] at this
  simp only [qvPermute, this, hf.length_eq]
  simp

example : qvPermute 0 [1, 2, 3, 4, 5, 6] [2, 0, 1] [2, 1, 3] = .ok [4, 5, 6, 1, 2, 3] := by decide

end QuantiT
