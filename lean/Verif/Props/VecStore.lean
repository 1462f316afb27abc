import Verif.Lemmas.VecStore
/-
Property C98: lists of conserved quantities whose type is known at run time only.
-/
namespace QuantiT
namespace QVec
open Spec

theorem run_sim : ∀ (p : List VecCmd) (vs : List QVec), (∀ v ∈ vs, Typed v) → AllInBounds p (vs.map abs) →
    ∃ vs', run p vs = some (vs', (vecRun p (vs.map abs)).2) ∧ vs'.map abs = (vecRun p (vs.map abs)).1 := by
  intro p
  induction p with
  | nil => intro vs _ _; exact ⟨vs, rfl, rfl⟩
  | cons c p ih =>
    intro vs ht hb
    obtain ⟨hb1, hb2⟩ := hb
    have h := sim ht c hb1
    unfold Sim at h
    cases hr : refusal (vs.map abs) c with
    | none =>
      rw [hr] at h
      obtain ⟨vs1, h1, h2, h3⟩ := h
      rw [hr, if_pos rfl, ← h2] at hb2
      obtain ⟨vs', h4, h5⟩ := ih vs1 h3 hb2
      refine ⟨vs', ?_, ?_⟩
      · simp only [run, h1, h4, vecRun, hr, if_true, ← h2, Option.map]
      · simp only [vecRun, hr, if_true, ← h2]; exact h5
    | some e =>
      rw [hr] at h
      simp only [hr, reduceCtorEq, if_false] at hb2
      obtain ⟨vs', h4, h5⟩ := ih vs ht hb2
      refine ⟨vs', ?_, ?_⟩
      · simp only [run, h, h4, vecRun, hr, reduceCtorEq, if_false, Option.map]
      · simp only [vecRun, hr, reduceCtorEq, if_false]; exact h5

/-- C98: a program over any number of vectors that stays inside their bounds, and does not copy a vector without type, is defined.
Every statement has the effect on its vector, and on no other, that it would have on a plain list; a statement that puts a quantity
of another type into a vector throws `bad_cast`, `at` behind the end `out_of_range`, and most modifiers of a vector without type
`runtime_error`; these are the only exceptions, and they leave every vector unchanged. -/
theorem C98_program_partial (p : List VecCmd) (hb : AllInBounds p []) :
    ∃ vs, run p [] = some (vs, (vecRun p []).2) ∧ vs.map abs = (vecRun p []).1 :=
  run_sim p [] (by simp) hb

theorem run_typed : ∀ (p : List VecCmd) (vs : List QVec) (r : List QVec × List (Option Exn)), (∀ v ∈ vs, Typed v) →
    run p vs = some r → ∀ v ∈ r.1, Typed v := by
  intro p
  induction p with
  | nil => intro vs r ht h; cases h; exact ht
  | cons c p ih =>
    intro vs r ht h
    unfold run at h
    split at h
    · rename_i vs1 h1
      obtain ⟨r1, h2, h3⟩ := Option.map_eq_some_iff.1 h
      rw [← h3]
      exact ih vs1 r1 (step_typed ht c (Or.inl h1)) h2
    · rename_i e vs1 h1
      obtain ⟨r1, h2, h3⟩ := Option.map_eq_some_iff.1 h
      rw [← h3]
      exact ih vs1 r1 (step_typed ht c (Or.inr ⟨e, h1⟩)) h2
    · cases h

/-- C98: after any history that is defined, with any exceptions caught on the way, all quantities of a vector have one type. -/
theorem C98_one_type (p : List VecCmd) (vs : List QVec) (log : List (Option Exn)) (h : run p [] = some (vs, log)) :
    ∀ ty l, some (ty, l) ∈ vs → ∀ q ∈ l, q.type = ty :=
  fun _ _ hv => run_typed p [] (vs, log) (by simp) h _ hv

/-- C98, reading: `at` returns the element or throws `out_of_range`; two vectors of one type are equal exactly if their lists are;
comparing vectors of different types throws `bad_cast`. -/
theorem C98_read_partial (ty ty' : List GrpType) (l l' : List Quantity) :
    (∀ n q, l[n]? = some q → getAt (some (ty, l)) n = .ok q) ∧
    (∀ n, l.length ≤ n → getAt (some (ty, l)) n = Res.throw .outOfRange) ∧
    size (some (ty, l)) = .ok l.length ∧
    (∃ b, eq (some (ty, l)) (some (ty, l')) = .ok b ∧ (b = true ↔ l = l')) ∧
    (ty ≠ ty' → eq (some (ty, l)) (some (ty', l')) = Res.throw .badCast) := by
  refine ⟨fun n q h => by simp [getAt, h], fun n h => ?_, rfl, ⟨decide (l = l'), by simp [eq], by simp⟩, fun h => ?_⟩
  · simp [getAt, h]
  · unfold eq; exact if_neg fun h' => h h'.symm

/-- C98 is false of vectors without type: copying or assigning one, asking its size and comparing another with it is undefined,
and it is not equal to itself. -/
theorem C98_no_type_fails (vs : List QVec) (x y : Nat) (v : List GrpType × List Quantity) (hy : vs[y]? = some none) :
    step vs (.copy y) = .ub ∧ step vs (.assign x y) = .ub ∧ size none = Res.ub ∧
    eq (some v) none = Res.ub ∧ eq none none = .ok false := by
  refine ⟨by simp only [step, hy], by simp only [step, hy], rfl, rfl, rfl⟩

/-- Vectors without type are met: a new variable, and one that was moved from. -/
theorem C98_no_type_reached (p : List VecCmd) (vs : List QVec) (log : List (Option Exn)) (h : run p [] = some (vs, log)) (y : Nat)
    (hy : y < vs.length) :
    ∃ vs1 vs2, step vs .new = .done vs1 ∧ vs1[vs.length]? = some none ∧ step vs (.take y) = .done vs2 ∧ vs2[y]? = some none := by
  obtain ⟨v, hv⟩ := get_of_lt hy
  refine ⟨_, vs.set y none ++ [v], rfl, by simp, by simp only [step, hv], ?_⟩
  rw [List.getElem?_append_left (by simpa using hy)]
  simp [hy]

theorem fillVals_ok (ty : List GrpType) : ∀ (qs : List Quantity) (pre rest : List Quantity), (∀ q ∈ qs, q.type = ty) →
    rest.length = qs.length → fillVals ty qs pre.length (pre ++ rest) = .ok (pre ++ qs) := by
  intro qs
  induction qs with
  | nil => intro pre rest _ h; rw [List.length_eq_zero_iff.1 h]; rfl
  | cons q qs ih =>
    intro pre rest h hl
    cases rest with
    | nil => simp at hl
    | cons r rest =>
      have h1 : ¬ (pre ++ r :: rest).length ≤ pre.length := by simp
      unfold fillVals put
      rw [if_neg h1, castTo_ok (h q (by simp)).symm]
      show fillVals ty qs (pre.length + 1) ((pre ++ r :: rest).set pre.length q) = _
      have h2 : (pre ++ r :: rest).set pre.length q = (pre ++ [q]) ++ rest := by
        rw [List.set_append_right _ _ (Nat.le_refl _)]; simp
      rw [h2, show pre.length + 1 = (pre ++ [q]).length by simp,
        ih (pre ++ [q]) rest (fun q' hq' => h q' (by simp [hq'])) (by simpa using hl)]
      simp

theorem fillVals_bad (ty : List GrpType) : ∀ (qs : List Quantity) (pre rest : List Quantity), (∃ q ∈ qs, q.type ≠ ty) →
    rest.length = qs.length → fillVals ty qs pre.length (pre ++ rest) = Res.throw .badCast := by
  intro qs
  induction qs with
  | nil => intro pre rest h; obtain ⟨q, hq, _⟩ := h; simp at hq
  | cons q qs ih =>
    intro pre rest h hl
    cases rest with
    | nil => simp at hl
    | cons r rest =>
      have h1 : ¬ (pre ++ r :: rest).length ≤ pre.length := by simp
      unfold fillVals put
      rw [if_neg h1]
      by_cases hq : q.type = ty
      · rw [castTo_ok hq.symm]
        show fillVals ty qs (pre.length + 1) ((pre ++ r :: rest).set pre.length q) = _
        have h2 : (pre ++ r :: rest).set pre.length q = (pre ++ [q]) ++ rest := by
          rw [List.set_append_right _ _ (Nat.le_refl _)]; simp
        rw [h2, show pre.length + 1 = (pre ++ [q]).length by simp]
        refine ih (pre ++ [q]) rest ?_ (by simpa using hl)
        obtain ⟨q', h3, h4⟩ := h
        rcases List.mem_cons.1 h3 with rfl | h3
        · exact absurd hq h4
        · exact ⟨q', h3, h4⟩
      · rw [castTo_bad fun h' => hq h'.symm]; rfl

/-- C98, block tensors: building a block tensor from sections with their charges keeps every charge, in order, if all are of the
type of the selection rule, and throws `bad_cast` otherwise. -/
theorem C98_charges_of_a_tensor (list : List (List (Nat × Quantity))) (rule : Quantity) :
    ((∀ d ∈ list, ∀ s ∈ d, s.2.type = rule.type) →
      cVals list (list.map List.length).sum rule = .ok (list.flatMap fun d => d.map Prod.snd)) ∧
    ((∃ d ∈ list, ∃ s ∈ d, s.2.type ≠ rule.type) →
      cVals list (list.map List.length).sum rule = Res.throw .badCast) := by
  have hl : (List.replicate (list.map List.length).sum rule.neutral).length = (list.flatMap fun d => d.map Prod.snd).length := by
    simp [List.length_flatMap]
  constructor
  · intro h
    refine fillVals_ok rule.type _ [] _ ?_ hl
    intro q hq
    obtain ⟨d, hd, hq⟩ := List.mem_flatMap.1 hq
    obtain ⟨s, hs, rfl⟩ := List.mem_map.1 hq
    exact h d hd s hs
  · rintro ⟨d, hd, s, hs, h⟩
    exact fillVals_bad rule.type _ [] _ ⟨s.2, List.mem_flatMap.2 ⟨d, hd, List.mem_map.2 ⟨s, hs, rfl⟩⟩, h⟩ hl

/-! ### A program that meets the hypotheses -/

/-- Two vectors of `Z` charges and one of `C<2>` charges; two statements are refused. -/
def ex98 : List VecCmd :=
  [.new, .pushBack 0 [.z (ZQ.ofInt 1)], .list [[.z (ZQ.ofInt 2)], [.z (ZQ.ofInt 3)]], .fill 2 [.c 2 (CN.ofInt 1)],
    .insertRange 0 1 1 0 2, .insertRange 0 1 2 0 1, .putAt 1 5 [.z (ZQ.ofInt 9)], .permute 0 [1, 0] [1, 2], .erase 0 0,
    .take 0, .resize 0 4, .resize 4 4]

instance (vs : VecStore) (c : VecCmd) : Decidable (InBounds vs c) := by
  cases c <;> unfold InBounds <;> infer_instance

instance decAllInBounds : ∀ (p : List VecCmd) (vs : VecStore), Decidable (AllInBounds p vs)
  | [], _ => isTrue trivial
  | c :: p, vs => by
    unfold AllInBounds
    exact @instDecidableAnd _ _ _ (decAllInBounds p _)

example : AllInBounds ex98 [] := by decide +kernel

example : (run ex98 []).map (fun r => (r.1.map fun v => (v.map Prod.snd).map fun l => l.map fun q => q.map Comp.getVal, r.2)) =
    some ([none, some [[2], [3]], some [[1], [1]], some [[2], [3], [1]], some [[2], [3], [0], [0]]],
      [none, none, none, none, none, some .badCast, some .outOfRange, none, none, none, some .runtimeError, none]) := by
  decide +kernel

end QVec
end QuantiT
