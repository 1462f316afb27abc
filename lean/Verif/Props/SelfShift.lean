import Verif.Model.SelfShift
import Verif.Props.BTensorOps
/-
C109: shifting the charges of a tensor by a charge of that tensor.
-/
namespace QuantiT
namespace BT
open Spec
set_option linter.unusedSectionVars false
variable {G R : Type} [AddCommGroup G]

theorem getD_set {shape : Shape G} {dim : Nat} (h : dim < shape.length) (d : Dim G) : (shape.set dim d).getD dim [] = d := by
  simp [List.getD, List.getElem?_set_self h]

theorem set_self {shape : Shape G} {dim : Nat} {d : Dim G} (h : shape[dim]? = some d) : shape.set dim d = shape := by
  obtain ⟨h1, h2⟩ := List.getElem?_eq_some_iff.1 h
  rw [← h2, List.set_getElem_self]

/-- One round of the loop. -/
theorem shiftLoopRef_step (rule : G) (ref : Ref G) {shape : Shape G} {dim : Nat} (hdim : dim < shape.length) (P T : Dim G) (x : Nat × G)
    {q : G} (hq : ref.read (shape.set dim (P ++ x :: T)) rule = .ok q) (n : Nat) :
    shiftLoopRef rule ref dim (n + 1) P.length (shape.set dim (P ++ x :: T)) =
      shiftLoopRef rule ref dim n (P.length + 1) (shape.set dim (P ++ (x.1, x.2 + q) :: T)) := by
  simp only [shiftLoopRef, hq, bind, Except.bind, getD_set hdim]
  simp

/-- The loop over the sections `Q`, when the reference reads the same charge throughout. -/
theorem shiftLoopRef_const (rule : G) (ref : Ref G) {shape : Shape G} {dim : Nat} (hdim : dim < shape.length) (T : Dim G) {q : G} (m : Nat) :
    ∀ (Q P : Dim G), (∀ Q' : Dim G, Q'.length = Q.length → ref.read (shape.set dim (P ++ Q' ++ T)) rule = .ok q) →
      shiftLoopRef rule ref dim (Q.length + m) P.length (shape.set dim (P ++ Q ++ T)) =
        shiftLoopRef rule ref dim m (P.length + Q.length) (shape.set dim (P ++ (Q.map fun x => (x.1, x.2 + q)) ++ T))
  | [], P, _ => by simp
  | x :: Q, P, h => by
    have h0 : P ++ (x :: Q) ++ T = P ++ x :: (Q ++ T) := by simp
    have h1 := h (x :: Q) rfl
    rw [h0] at h1 ⊢
    rw [List.length_cons, show Q.length + 1 + m = (Q.length + m) + 1 by omega, shiftLoopRef_step rule ref hdim P _ x h1]
    have ih := shiftLoopRef_const rule ref hdim T (q := q) m Q (P ++ [(x.1, x.2 + q)]) (by
      intro Q' hQ'
      simpa using h ((x.1, x.2 + q) :: Q') (by simp [hQ']))
    simp only [List.length_append, List.length_singleton, List.append_assoc, List.nil_append, List.cons_append] at ih
    simp only [List.map_cons, List.append_assoc, List.cons_append]
    rw [ih, show P.length + 1 + Q.length = P.length + (Q.length + 1) by omega]

/-- The whole range, when nothing in it is referred to. -/
theorem shiftImplRef_const (shape : Shape G) (rule : G) (ref : Ref G) (dim : Nat) {q : G}
    (h : ∀ d', ref.read (shape.set dim d') rule = .ok q) : shiftImplRef shape rule ref dim = shiftImpl shape q dim := by
  unfold shiftImplRef shiftImpl
  rcases hd : shape[dim]? with _ | d
  · rfl
  · have hdim : dim < shape.length := (List.getElem?_eq_some_iff.1 hd).1
    have := shiftLoopRef_const rule ref hdim [] (q := q) 0 d [] (fun Q' _ => h _)
    simp only [List.nil_append, List.append_nil, Nat.add_zero, List.length_nil, set_self hd] at this
    simp only [this, shiftLoopRef]

/-- The reference is to nothing in dimension `dim`. -/
def Apart (ref : Ref G) (dim : Nat) : Prop := ∀ d s, ref = .sec d s → d ≠ dim

theorem apart_read {ref : Ref G} {dim : Nat} (h : Apart ref dim) (shape : Shape G) (rule : G) (d' : Dim G) :
    ref.read (shape.set dim d') rule = ref.read shape rule := by
  cases ref with
  | ext q => rfl
  | rule => rfl
  | sec d s =>
    have hne := h d s rfl
    simp only [Ref.read, List.getD]
    rw [List.getElem?_set_ne (Ne.symm hne)]

/-- **C109** for a charge outside the tensor, its selection rule, or a section of another dimension: the shift through the
reference is the shift by the charge the reference shows at the call.  Missing: a section of the shifted dimension
(`C109_own_fails`). -/
theorem C109_shift_partial (t : BT G R) (ref : Ref G) (dim : Nat) (q : G) (hq : ref.read t.shape t.rule = .ok q) (h : Apart ref dim) :
    cvalShiftRef t ref dim = cvalShift t q dim ∧
      nonConservingCvalShiftRef t ref dim = nonConservingCvalShift t q dim := by
  have hs := shiftImplRef_const t.shape t.rule ref dim (q := q) fun d' => by rw [apart_read h, hq]
  constructor
  · unfold cvalShiftRef cvalShift
    rw [hs]
    simp only [bind, Except.bind]
    unfold shiftImpl
    rcases t.shape[dim]? with _ | d
    · rfl
    · simp only [apart_read h, hq]
  · unfold nonConservingCvalShiftRef nonConservingCvalShift
    rw [hs]

example (t : BT ℤ ℤ) : Apart (.rule : Ref ℤ) 0 ∧ (Ref.rule).read t.shape t.rule = .ok t.rule ∧ Apart (.sec 1 0 : Ref ℤ) 0 :=
  ⟨(fun _ _ h => by cases h), rfl, (fun _ _ h => by cases h; decide)⟩

/-- **C109**, out of place: `cval_shift` shifts a copy, so that every reference into the tensor keeps showing the same charge. -/
theorem C109_copy (t : BT G R) (ref : Ref G) (dim : Nat) (q : G) (hq : ref.read t.shape t.rule = .ok q) :
    cvalShiftCopyRef t ref dim = cvalShift t q dim := by
  simp only [cvalShiftCopyRef, hq, bind, Except.bind]

/-- A section of the shifted dimension, exactly: the sections before it move by its charge `q`, itself and those behind it by what
it has become at that point: it ends at `q + q`, those behind it move by `q + q`, and the rule by `-(q + q)`. -/
theorem C109_own_exact (t : BT G R) (dim : Nat) (P T : Dim G) (n : Nat) (q : G) (hd : t.shape[dim]? = some (P ++ (n, q) :: T)) :
    cvalShiftRef t (.sec dim P.length) dim = .ok { t with
      shape := t.shape.set dim ((P.map fun x => (x.1, x.2 + q)) ++ (n, q + q) :: T.map fun x => (x.1, x.2 + (q + q)))
      rule := t.rule + -(q + q) } := by
  have hdim : dim < t.shape.length := (List.getElem?_eq_some_iff.1 hd).1
  have hread : ∀ (P' : Dim G) (x : Nat × G) (T' : Dim G), P'.length = P.length →
      (Ref.sec dim P.length).read (t.shape.set dim (P' ++ x :: T')) t.rule = .ok x.2 := by
    intro P' x T' h
    simp only [Ref.read, getD_set hdim]
    rw [← h]
    simp
  have h1 := shiftLoopRef_const t.rule (.sec dim P.length) hdim ((n, q) :: T) (q := q) (T.length + 1) P []
    (fun Q' h => by simpa using hread Q' (n, q) T h)
  have h2 := shiftLoopRef_step t.rule (.sec dim P.length) hdim (P.map fun x => (x.1, x.2 + q)) T (n, q)
    (hread _ _ _ (by simp)) T.length
  have h3 := shiftLoopRef_const t.rule (.sec dim P.length) hdim [] (q := q + q) 0 T
    ((P.map fun x => (x.1, x.2 + q)) ++ [(n, q + q)])
    (fun Q' _ => by simpa using hread (P.map fun x => (x.1, x.2 + q)) (n, q + q) Q' (by simp))
  simp only [List.nil_append, List.append_nil, Nat.add_zero, List.length_nil, Nat.zero_add, List.length_append, List.length_map,
    List.length_singleton, List.append_assoc, List.singleton_append, set_self hd] at h1 h2 h3
  have h4 : shiftImplRef t.shape t.rule (.sec dim P.length) dim =
      .ok (t.shape.set dim ((P.map fun x => (x.1, x.2 + q)) ++ (n, q + q) :: T.map fun x => (x.1, x.2 + (q + q)))) := by
    simp only [shiftImplRef, hd]
    rw [show (P ++ (n, q) :: T).length = P.length + (T.length + 1) by simp, h1, h2, h3]
    rfl
  unfold cvalShiftRef
  simp only [h4, bind, Except.bind, hread (P.map fun x => (x.1, x.2 + q)) (n, q + q) (T.map fun x => (x.1, x.2 + (q + q))) (by simp)]

/-- **C109** fails for a section of the shifted dimension with a charge other than the neutral one: the result is not the
shift by that charge. -/
theorem C109_own_fails (t : BT G R) (dim s : Nat) (q : G) (hq : (Ref.sec dim s).read t.shape t.rule = .ok q) (h0 : q ≠ 0) :
    ∃ r r', cvalShiftRef t (.sec dim s) dim = .ok r ∧ cvalShift t q dim = .ok r' ∧ r.rule ≠ r'.rule := by
  simp only [Ref.read] at hq
  rcases hd : t.shape[dim]? with _ | d
  · simp [List.getD, hd, Res.ub] at hq
  simp only [List.getD, hd, Option.getD_some] at hq
  rcases hx : d[s]? with _ | ⟨n, q'⟩
  · simp [hx, Res.ub] at hq
  simp only [hx, Except.ok.injEq] at hq
  subst hq
  obtain ⟨hs, hx'⟩ := List.getElem?_eq_some_iff.1 hx
  have hsplit : d = d.take s ++ (n, q') :: d.drop (s + 1) := by
    rw [← hx', List.getElem_cons_drop hs, List.take_append_drop]
  have hl : (d.take s).length = s := by simp; omega
  have he := C109_own_exact t dim (d.take s) (d.drop (s + 1)) n q' (by rw [← hsplit]; exact hd)
  rw [hl] at he
  refine ⟨_, { t with shape := t.shape.set dim (d.map fun x => (x.1, x.2 + q')), rule := t.rule + -q' }, he, ?_, ?_⟩
  · simp only [cvalShift, shiftImpl, hd, bind, Except.bind]
  · intro h
    simp only [add_right_inj, neg_inj] at h
    exact h0 (by simpa using h)

example : (Ref.sec 0 1).read ([[(2, 0), (1, 1)], [(1, 0), (3, -1)]] : Shape ℤ) 0 = .ok 1 ∧ (1 : ℤ) ≠ 0 := ⟨rfl, by decide⟩

end BT
end QuantiT
