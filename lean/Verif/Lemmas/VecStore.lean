import Verif.Model.VecStore
import Verif.Props.Quantity
/-
Lemmas for property C98.
-/
namespace QuantiT
namespace QVec
open Spec

/-- What a variable holds. -/
def abs : QVec → Option (List GrpType) × List Quantity
  | none => (none, [])
  | some (ty, l) => (some ty, l)

/-- All quantities are of the type of the vector. -/
def Typed : QVec → Prop
  | none => True
  | some (ty, l) => ∀ q ∈ l, q.type = ty

theorem getD_map {vs : List QVec} {x : Nat} {v : QVec} (h : vs[x]? = some v) : (vs.map abs).getD x (none, []) = abs v := by
  simp [List.getD, h]

theorem typeOf_map {vs : List QVec} {x : Nat} {v : QVec} (h : vs[x]? = some v) : typeOf (vs.map abs) x = (abs v).1 := by
  rw [typeOf, getD_map h]

theorem items_map {vs : List QVec} {x : Nat} {v : QVec} (h : vs[x]? = some v) : items (vs.map abs) x = (abs v).2 := by
  rw [items, getD_map h]

theorem typed_set {vs : List QVec} (h : ∀ v ∈ vs, Typed v) (x : Nat) {v : QVec} (hv : Typed v) : ∀ w ∈ vs.set x v, Typed w := by
  intro w hw
  rcases List.mem_or_eq_of_mem_set hw with h1 | rfl
  · exact h _ h1
  · exact hv

theorem typed_append {vs : List QVec} (h : ∀ v ∈ vs, Typed v) {v : QVec} (hv : Typed v) : ∀ w ∈ vs ++ [v], Typed w := by
  intro w hw
  rcases List.mem_append.1 hw with h1 | h1
  · exact h _ h1
  · rw [List.mem_singleton.1 h1]; exact hv

theorem typed_of_get {vs : List QVec} (h : ∀ v ∈ vs, Typed v) {x : Nat} {v : QVec} (hx : vs[x]? = some v) : Typed v :=
  h _ (List.mem_of_getElem? hx)

theorem fromList_ok : ∀ (qs : List Quantity) (ty : List GrpType) (l : List Quantity), (∀ q ∈ qs, q.type = ty) →
    fromList qs ty l = .ok (l ++ qs) := by
  intro qs
  induction qs with
  | nil => intro ty l _; simp [fromList]
  | cons q qs ih =>
    intro ty l h
    simp only [fromList, pushBack, castTo, if_pos (h q (by simp))]
    show fromList qs ty (l ++ [q]) = _
    rw [ih ty (l ++ [q]) fun q' hq' => h q' (by simp [hq'])]
    simp

theorem fromList_bad : ∀ (qs : List Quantity) (ty : List GrpType) (l : List Quantity), (∃ q ∈ qs, q.type ≠ ty) →
    fromList qs ty l = Res.throw .badCast := by
  intro qs
  induction qs with
  | nil => intro ty l h; obtain ⟨q, hq, _⟩ := h; simp at hq
  | cons q qs ih =>
    intro ty l h
    by_cases hq : q.type = ty
    · simp only [fromList, pushBack, castTo, if_pos hq]
      show fromList qs ty (l ++ [q]) = _
      refine ih ty _ ?_
      obtain ⟨q', h1, h2⟩ := h
      rcases List.mem_cons.1 h1 with rfl | h1
      · exact absurd hq h2
      · exact ⟨q', h1, h2⟩
    · simp only [fromList, pushBack, castTo, if_neg hq]
      rfl

theorem dflt_type (ty : List GrpType) : (dflt ty).type = ty := by
  simp only [dflt, Quantity.type, List.map_map]
  refine Eq.trans (List.map_congr_left (g := id) fun t _ => ?_) (List.map_id ty)
  cases t <;> rfl

/-- The list cut in sections of the given lengths. -/
def sections {α : Type} : List Nat → List α → List (List α)
  | [], _ => []
  | n :: rep, l => l.take n :: sections rep (l.drop n)

theorem sections_flatten {α : Type} : ∀ (rep : List Nat) (l : List α), rep.sum = l.length → (sections rep l).flatten = l := by
  intro rep
  induction rep with
  | nil => intro l h; simpa [sections] using (List.length_eq_zero_iff.1 h.symm).symm
  | cons n rep ih =>
    intro l h
    simp only [List.sum_cons] at h
    simp only [sections, List.flatten_cons]
    rw [ih _ (by simp; omega), List.take_append_drop]

theorem sections_lengths {α : Type} : ∀ (rep : List Nat) (l : List α), rep.sum = l.length →
    (sections rep l).map List.length = rep := by
  intro rep
  induction rep with
  | nil => intro l h; rfl
  | cons n rep ih =>
    intro l h
    simp only [List.sum_cons] at h
    simp only [sections, List.map_cons]
    rw [ih _ (by simp; omega)]
    simp; omega

theorem sections_get {α : Type} : ∀ (rep : List Nat) (l : List α) (d : Nat), d < rep.length →
    (sections rep l)[d]? = some ((l.drop (rep.take d).sum).take (rep.getD d 0)) := by
  intro rep
  induction rep with
  | nil => intro l d h; simp at h
  | cons n rep ih =>
    intro l d h
    cases d with
    | zero => simp [sections]
    | succ d =>
      simp only [sections, List.getElem?_cons_succ]
      rw [ih _ _ (by simpa using h)]
      simp [List.drop_drop]

theorem permute_ok {α : Type} (z : α) (l : List α) (perm rep : List Nat) (hs : rep.sum = l.length)
    (hp : perm.Perm (List.range rep.length)) :
    qvPermute z l perm rep = .ok (perm.flatMap fun d => (l.drop (rep.take d).sum).take (rep.getD d 0)) ∧
    (perm.flatMap fun d => (l.drop (rep.take d).sum).take (rep.getD d 0)).Perm l := by
  have hl : (sections rep l).length = rep.length := by
    rw [← List.length_map (f := List.length), sections_lengths rep l hs]
  have h := C07_permute_sections z (sections rep l) (perm.map fun d => (l.drop (rep.take d).sum).take (rep.getD d 0)) perm
    (by rw [hl]; exact hp)
    (by
      rw [List.map_map]
      refine List.map_congr_left fun d hd => ?_
      have : d < rep.length := List.mem_range.1 (hp.mem_iff.1 hd)
      exact sections_get rep l d this)
  rw [sections_flatten rep l hs, sections_lengths rep l hs] at h
  rw [List.flatMap_def]
  exact h

/-- What one statement does. -/
def Sim (vs : List QVec) (c : VecCmd) : Prop :=
  match refusal (vs.map abs) c with
  | none => ∃ vs', step vs c = .done vs' ∧ vs'.map abs = vecStep (vs.map abs) c ∧ ∀ v ∈ vs', Typed v
  | some e => step vs c = .threw e vs

theorem get_of_lt {vs : List QVec} {x : Nat} (h : x < vs.length) : ∃ v, vs[x]? = some v := ⟨vs[x], by simp [h]⟩

theorem foreign_some {vs : List QVec} {x : Nat} {ty : List GrpType} {l : List Quantity} (h : vs[x]? = some (some (ty, l)))
    (q : Quantity) : foreign (vs.map abs) x q = decide (ty ≠ q.type) := by
  simp [foreign, typeOf_map h, abs]

theorem foreign_none {vs : List QVec} {x : Nat} (h : vs[x]? = some none) (q : Quantity) :
    foreign (vs.map abs) x q = false := by
  simp [foreign, typeOf_map h, abs]

/-- A modifier that ends. -/
theorem through_ok {vs : List QVec} {x : Nat} {ty : List GrpType} {l l' : List Quantity} {null : Out}
    {f : List GrpType → List Quantity → Res (List Quantity)} (h : vs[x]? = some (some (ty, l))) (hf : f ty l = .ok l')
    (ht : ∀ v ∈ vs, Typed v) (hl : ∀ q ∈ l', q.type = ty) :
    ∃ vs', through vs x null f = .done vs' ∧ vs'.map abs = (vs.map abs).set x (some ty, l') ∧ ∀ v ∈ vs', Typed v := by
  refine ⟨vs.set x (some (ty, l')), by simp only [through, h, hf], ?_, typed_set ht x hl⟩
  rw [List.map_set]; rfl

/-- A modifier that throws. -/
theorem through_bad {vs : List QVec} {x : Nat} {ty : List GrpType} {l : List Quantity} {null : Out} {e : Exn}
    {f : List GrpType → List Quantity → Res (List Quantity)} (h : vs[x]? = some (some (ty, l))) (hf : f ty l = Res.throw e) :
    through vs x null f = .threw e vs := by
  simp only [through, h, hf]; rfl

theorem through_null {vs : List QVec} {x : Nat} {null : Out} {f : List GrpType → List Quantity → Res (List Quantity)}
    (h : vs[x]? = some none) : through vs x null f = null := by
  simp only [through, h]

theorem castTo_ok {ty : List GrpType} {q : Quantity} (h : ty = q.type) : castTo ty q = .ok q := by simp [castTo, h]

theorem castTo_bad {ty : List GrpType} {q : Quantity} (h : ty ≠ q.type) : castTo ty q = Res.throw .badCast := by
  unfold castTo; exact if_neg fun h' => h h'.symm

/-- A modifier that needs a type, and casts first. -/
theorem sim_cast {vs : List QVec} (ht : ∀ v ∈ vs, Typed v) {x : Nat} {ty : List GrpType} {l : List Quantity}
    (h : vs[x]? = some (some (ty, l))) {c : VecCmd} {q : Quantity} {null : Out}
    {f : List GrpType → List Quantity → Res (List Quantity)} {l' : List Quantity}
    (hs : step vs c = through vs x null f)
    (hr : refusal (vs.map abs) c = if foreign (vs.map abs) x q then some .badCast else none)
    (hbad : ty ≠ q.type → f ty l = Res.throw .badCast)
    (hok : ty = q.type → f ty l = .ok l' ∧ (∀ q ∈ l', q.type = ty) ∧
      vecStep (vs.map abs) c = (vs.map abs).set x (some ty, l')) : Sim vs c := by
  unfold Sim
  rw [hr, foreign_some h, hs]
  by_cases hq : ty = q.type
  · obtain ⟨h1, h2, h3⟩ := hok hq
    simp only [hq, ne_eq, not_true_eq_false, decide_false, Bool.false_eq_true, if_false]
    rw [h3]
    exact through_ok h h1 ht h2
  · simp only [hq, ne_eq, not_false_eq_true, decide_true, if_true]
    exact through_bad h (hbad hq)

theorem sim {vs : List QVec} (ht : ∀ v ∈ vs, Typed v) (c : VecCmd) (hb : InBounds (vs.map abs) c) : Sim vs c := by
  cases c with
  | new => exact ⟨_, rfl, by simp [vecStep, abs], typed_append ht trivial⟩
  | fill n q =>
    refine ⟨_, rfl, by simp [vecStep, abs], typed_append ht ?_⟩
    intro q' hq'
    rw [List.eq_of_mem_replicate hq']
  | list qs =>
    cases qs with
    | nil => exact absurd rfl hb
    | cons q qs =>
      unfold Sim
      by_cases hq : ∃ q' ∈ qs, q'.type ≠ q.type
      · have h1 : (qs.any (·.type ≠ q.type)) = true := by simpa using hq
        obtain ⟨q', h2, h3⟩ := hq
        simp only [refusal, h1, if_true]
        simp only [step, fromList_bad (q :: qs) q.type [] ⟨q', by simp [h2], h3⟩]
        rfl
      · have h1 : (qs.any (·.type ≠ q.type)) = false := by
          cases h : qs.any (·.type ≠ q.type)
          · rfl
          · exact absurd (by simpa using h) hq
        have h2 : ∀ q' ∈ q :: qs, q'.type = q.type := by
          intro q' h
          rcases List.mem_cons.1 h with rfl | h
          · rfl
          · exact Classical.not_not.1 fun h3 => hq ⟨q', h, h3⟩
        simp only [refusal, h1, Bool.false_eq_true, if_false]
        refine ⟨vs ++ [some (q.type, q :: qs)], by simp only [step, fromList_ok (q :: qs) q.type [] h2, List.nil_append], ?_,
          typed_append ht h2⟩
        simp [vecStep, abs]
  | copy y =>
    simp only [InBounds, List.length_map] at hb
    obtain ⟨v, hv⟩ := get_of_lt hb.1
    rw [typeOf_map hv] at hb
    cases v with
    | none => exact absurd rfl hb.2
    | some v =>
      refine ⟨_, by simp only [step, hv], ?_, typed_append ht (typed_of_get ht hv)⟩
      simp only [vecStep, typeOf_map hv, items_map hv]; simp
  | take y =>
    simp only [InBounds, List.length_map] at hb
    obtain ⟨v, hv⟩ := get_of_lt hb
    refine ⟨_, by simp only [step, hv], ?_, typed_append (typed_set ht y (v := none) trivial) (typed_of_get ht hv)⟩
    simp only [vecStep, typeOf_map hv, items_map hv]; simp [List.map_set, abs]
  | assign x y =>
    simp only [InBounds, List.length_map] at hb
    obtain ⟨v, hv⟩ := get_of_lt hb.2.1
    rw [typeOf_map hv] at hb
    cases v with
    | none => exact absurd rfl hb.2.2
    | some v =>
      refine ⟨_, by simp only [step, hv, if_pos hb.1], ?_, typed_set ht x (typed_of_get ht hv)⟩
      simp only [vecStep, typeOf_map hv, items_map hv, List.map_set]
  | assignTake x y =>
    simp only [InBounds, List.length_map] at hb
    obtain ⟨v, hv⟩ := get_of_lt hb.2
    refine ⟨_, by simp only [step, hv, if_pos hb.1], ?_,
      typed_set (typed_set ht y (v := none) trivial) x (typed_of_get ht hv)⟩
    simp only [vecStep, typeOf_map hv, items_map hv, List.map_set]; rfl
  | swap x y =>
    simp only [InBounds, List.length_map] at hb
    obtain ⟨v, hv⟩ := get_of_lt hb.1
    obtain ⟨w, hw⟩ := get_of_lt hb.2
    refine ⟨_, by simp only [step, hv, hw], ?_, typed_set (typed_set ht x (typed_of_get ht hw)) y (typed_of_get ht hv)⟩
    simp only [vecStep, typeOf_map hv, items_map hv, typeOf_map hw, items_map hw, List.map_set]
  | put x n q =>
    simp only [InBounds, List.length_map] at hb
    obtain ⟨v, hv⟩ := get_of_lt hb.1
    rw [items_map hv] at hb
    rcases v with _ | ⟨ty, l⟩
    · simp [abs] at hb
    · have hn : ¬ l.length ≤ n := by simpa [abs] using hb.2
      refine sim_cast ht hv (q := q) (l' := l.set n q) rfl rfl (fun h => ?_) (fun h => ⟨?_, ?_, ?_⟩)
      · simp only [put, if_neg hn, castTo_bad h]; rfl
      · simp only [put, if_neg hn, castTo_ok h]; rfl
      · intro q' hq'
        rcases List.mem_or_eq_of_mem_set hq' with h1 | rfl
        · exact typed_of_get ht hv q' h1
        · exact h.symm
      · simp only [vecStep, typeOf_map hv, items_map hv, abs]
  | putAt x n q =>
    simp only [InBounds, List.length_map] at hb
    obtain ⟨v, hv⟩ := get_of_lt hb
    rcases v with _ | ⟨ty, l⟩
    · simp only [Sim, refusal, typeOf_map hv, abs, if_true, step, through_null hv]
    · by_cases hn : l.length ≤ n
      · simp only [Sim, refusal, typeOf_map hv, items_map hv, abs, reduceCtorEq, if_false, if_pos hn, step]
        exact through_bad hv (by simp only [putAt, if_pos hn])
      · refine sim_cast ht hv (q := q) (l' := l.set n q) rfl ?_ (fun h => ?_) (fun h => ⟨?_, ?_, ?_⟩)
        · simp only [refusal, typeOf_map hv, items_map hv, abs, reduceCtorEq, if_false, if_neg hn]
        · simp only [putAt, if_neg hn, castTo_bad h]; rfl
        · simp only [putAt, if_neg hn, castTo_ok h]; rfl
        · intro q' hq'
          rcases List.mem_or_eq_of_mem_set hq' with h1 | rfl
          · exact typed_of_get ht hv q' h1
          · exact h.symm
        · simp only [vecStep, typeOf_map hv, items_map hv, abs]
  | pushBack x q =>
    simp only [InBounds, List.length_map] at hb
    obtain ⟨v, hv⟩ := get_of_lt hb
    rcases v with _ | ⟨ty, l⟩
    · simp only [Sim, refusal, foreign_none hv, Bool.false_eq_true, if_false]
      refine ⟨vs.set x (some (q.type, [q])), by simp only [step, through_null hv], ?_,
        typed_set ht x (by intro q' hq'; rw [List.mem_singleton.1 hq'])⟩
      simp only [vecStep, items_map hv, abs, List.map_set]; rfl
    · refine sim_cast ht hv (q := q) (l' := l ++ [q]) rfl rfl (fun h => ?_) (fun h => ⟨?_, ?_, ?_⟩)
      · simp only [pushBack, castTo_bad h]; rfl
      · simp only [pushBack, castTo_ok h]; rfl
      · intro q' hq'
        rcases List.mem_append.1 hq' with h1 | h1
        · exact typed_of_get ht hv q' h1
        · rw [List.mem_singleton.1 h1, h]
      · simp only [vecStep, items_map hv, abs, h]
  | popBack x =>
    simp only [InBounds, List.length_map] at hb
    obtain ⟨v, hv⟩ := get_of_lt hb.1
    rcases v with _ | ⟨ty, l⟩
    · simp only [Sim, refusal, typeOf_map hv, abs, if_true, step, through_null hv]
    · have hl : l ≠ [] := by
        have := hb.2; simp only [typeOf_map hv, items_map hv, abs] at this; exact this (by simp)
      simp only [Sim, refusal, typeOf_map hv, abs, reduceCtorEq, if_false]
      have := through_ok (null := .threw .runtimeError vs) hv (f := popBack) (l' := l.dropLast)
        (by simp only [popBack, if_neg hl]) ht
        (fun q' hq' => typed_of_get ht hv q' (List.dropLast_subset _ hq'))
      simpa only [vecStep, typeOf_map hv, items_map hv, abs, step] using this
  | insert x p q =>
    simp only [InBounds, List.length_map] at hb
    obtain ⟨v, hv⟩ := get_of_lt hb.1
    rw [items_map hv] at hb
    rcases v with _ | ⟨ty, l⟩
    · have hp : p = 0 := by simpa [abs] using hb.2
      simp only [Sim, refusal, typeOf_map hv, abs, if_true, step, through_null hv, hp]
    · have hn : ¬ l.length < p := by simpa [abs] using hb.2
      refine sim_cast ht hv (q := q) (l' := l.take p ++ q :: l.drop p) rfl ?_ (fun h => ?_) (fun h => ⟨?_, ?_, ?_⟩)
      · simp only [refusal, typeOf_map hv, abs, reduceCtorEq, if_false]
      · simp only [insertN, castTo_bad h]; rfl
      · simp only [insertN, castTo_ok h]
        show (if l.length < p then _ else _) = _
        rw [if_neg hn]; simp
      · intro q' hq'
        rcases List.mem_append.1 hq' with h1 | h1
        · exact typed_of_get ht hv q' (List.mem_of_mem_take h1)
        · rcases List.mem_cons.1 h1 with rfl | h1
          · exact h.symm
          · exact typed_of_get ht hv q' (List.mem_of_mem_drop h1)
      · simp only [vecStep, typeOf_map hv, items_map hv, abs]
  | insertN x p n q =>
    simp only [InBounds, List.length_map] at hb
    obtain ⟨v, hv⟩ := get_of_lt hb.1
    rw [items_map hv] at hb
    rcases v with _ | ⟨ty, l⟩
    · have hp : p = 0 := by simpa [abs] using hb.2
      simp only [Sim, refusal, typeOf_map hv, abs, if_true, step, through_null hv, hp]
    · have hn : ¬ l.length < p := by simpa [abs] using hb.2
      refine sim_cast ht hv (q := q) (l' := l.take p ++ List.replicate n q ++ l.drop p) rfl ?_ (fun h => ?_)
        (fun h => ⟨?_, ?_, ?_⟩)
      · simp only [refusal, typeOf_map hv, abs, reduceCtorEq, if_false]
      · simp only [insertN, castTo_bad h]; rfl
      · simp only [insertN, castTo_ok h]
        show (if l.length < p then _ else _) = _
        rw [if_neg hn]
      · intro q' hq'
        rcases List.mem_append.1 hq' with h1 | h1
        · rcases List.mem_append.1 h1 with h1 | h1
          · exact typed_of_get ht hv q' (List.mem_of_mem_take h1)
          · rw [List.eq_of_mem_replicate h1, h]
        · exact typed_of_get ht hv q' (List.mem_of_mem_drop h1)
      · simp only [vecStep, typeOf_map hv, items_map hv, abs]
  | insertRange x p y a b =>
    simp only [InBounds, List.length_map] at hb
    obtain ⟨hx, hy, hxy, hp, hab, hbl⟩ := hb
    obtain ⟨v, hv⟩ := get_of_lt hx
    obtain ⟨w, hw⟩ := get_of_lt hy
    rw [items_map hv] at hp
    rw [items_map hw] at hbl
    rcases w with _ | ⟨ty', l'⟩
    · have hab0 : a = 0 ∧ b = 0 := by have : b = 0 := by simpa [abs] using hbl
                                      omega
      rcases v with _ | ⟨ty, l⟩
      · have hp0 : p = 0 := by simpa [abs] using hp
        simp only [Sim, refusal, typeOf_map hv, abs, if_true, step, hw, hab0, and_self, hp0, through_null hv]
      · simp only [Sim, refusal, typeOf_map hv, typeOf_map hw, abs, reduceCtorEq, if_false, ne_eq, not_false_eq_true, if_true,
          step, hw, hab0, and_self]
        exact through_bad hv rfl
    · have hb' : ¬ (x = y ∨ b < a ∨ l'.length < b) := by
        simp only [abs] at hbl; omega
      rcases v with _ | ⟨ty, l⟩
      · have hp0 : p = 0 := by simpa [abs] using hp
        simp only [Sim, refusal, typeOf_map hv, abs, if_true, step, hw, if_neg hb', hp0, through_null hv]
      · have hn : ¬ l.length < p := by simpa [abs] using hp
        by_cases hty : ty = ty'
        · subst hty
          simp only [Sim, refusal, typeOf_map hv, typeOf_map hw, abs, reduceCtorEq, if_false, ne_eq, not_true_eq_false,
            step, hw, if_neg hb']
          have := through_ok (null := if p = 0 then .threw .runtimeError vs else .ub) hv
            (f := insertRange p (some (ty, (l'.take b).drop a))) (l' := l.take p ++ (l'.take b).drop a ++ l.drop p)
            (by simp only [insertRange, ne_eq, not_true_eq_false, if_false, if_neg hn]) ht
            (fun q' hq' => by
              rcases List.mem_append.1 hq' with h1 | h1
              · rcases List.mem_append.1 h1 with h1 | h1
                · exact typed_of_get ht hv q' (List.mem_of_mem_take h1)
                · exact typed_of_get ht hw q' (List.mem_of_mem_take (List.mem_of_mem_drop h1))
              · exact typed_of_get ht hv q' (List.mem_of_mem_drop h1))
          simpa only [vecStep, typeOf_map hv, items_map hv, items_map hw, abs] using this
        · have h1 : (some ty ≠ some ty') := fun h => hty (Option.some.inj h)
          simp only [Sim, refusal, typeOf_map hv, typeOf_map hw, abs, reduceCtorEq, if_false, if_pos h1, step, hw, if_neg hb']
          exact through_bad hv (by simp only [insertRange, if_pos (fun h => hty (Eq.symm h) : ty' ≠ ty)])
  | insertReversed x p y =>
    simp only [InBounds, List.length_map] at hb
    obtain ⟨hx, hy, hxy, hp⟩ := hb
    obtain ⟨v, hv⟩ := get_of_lt hx
    obtain ⟨w, hw⟩ := get_of_lt hy
    rw [items_map hv] at hp
    rcases v with _ | ⟨ty, l⟩
    · have hp0 : p = 0 := by simpa [abs] using hp
      simp only [Sim, refusal, typeOf_map hv, abs, if_true, step, hw, if_neg hxy, hp0, through_null hv]
    · have hn : ¬ l.length < p := by simpa [abs] using hp
      rcases w with _ | ⟨ty', l'⟩
      · simp only [Sim, refusal, typeOf_map hv, typeOf_map hw, abs, reduceCtorEq, if_false, ne_eq, not_false_eq_true, if_true,
          step, hw, if_neg hxy]
        exact through_bad hv rfl
      · by_cases hty : ty = ty'
        · subst hty
          simp only [Sim, refusal, typeOf_map hv, typeOf_map hw, abs, reduceCtorEq, if_false, ne_eq, not_true_eq_false,
            step, hw, if_neg hxy, Option.map]
          have := through_ok (null := if p = 0 then .threw .runtimeError vs else .ub) hv
            (f := insertRange p (some (ty, l'.reverse))) (l' := l.take p ++ l'.reverse ++ l.drop p)
            (by simp only [insertRange, ne_eq, not_true_eq_false, if_false, if_neg hn]) ht
            (fun q' hq' => by
              rcases List.mem_append.1 hq' with h1 | h1
              · rcases List.mem_append.1 h1 with h1 | h1
                · exact typed_of_get ht hv q' (List.mem_of_mem_take h1)
                · exact typed_of_get ht hw q' (List.mem_reverse.1 h1)
              · exact typed_of_get ht hv q' (List.mem_of_mem_drop h1))
          simpa only [vecStep, typeOf_map hv, items_map hv, items_map hw, abs] using this
        · have h1 : (some ty ≠ some ty') := fun h => hty (Option.some.inj h)
          simp only [Sim, refusal, typeOf_map hv, typeOf_map hw, abs, reduceCtorEq, if_false, if_pos h1, step, hw, if_neg hxy,
            Option.map]
          exact through_bad hv (by simp only [insertRange, if_pos (fun h => hty (Eq.symm h) : ty' ≠ ty)])
  | erase x p =>
    simp only [InBounds, List.length_map] at hb
    obtain ⟨v, hv⟩ := get_of_lt hb.1
    rw [items_map hv] at hb
    rcases v with _ | ⟨ty, l⟩
    · simp [abs] at hb
    · have hn : ¬ (p + 1 < p ∨ l.length < p + 1) := by
        have := hb.2; simp only [abs] at this; omega
      have := through_ok (null := if p = 0 then .done vs else .ub) hv
        (f := eraseRange p (p + 1)) (l' := l.take p ++ l.drop (p + 1)) (by simp only [eraseRange, if_neg hn]) ht
        (fun q' hq' => by
          rcases List.mem_append.1 hq' with h1 | h1
          · exact typed_of_get ht hv q' (List.mem_of_mem_take h1)
          · exact typed_of_get ht hv q' (List.mem_of_mem_drop h1))
      simpa only [Sim, refusal, vecStep, typeOf_map hv, items_map hv, abs, step] using this
  | eraseRange x a b =>
    simp only [InBounds, List.length_map] at hb
    obtain ⟨hx, hab, hbl⟩ := hb
    obtain ⟨v, hv⟩ := get_of_lt hx
    rw [items_map hv] at hbl
    rcases v with _ | ⟨ty, l⟩
    · have hab0 : a = 0 ∧ b = 0 := by have : b = 0 := by simpa [abs] using hbl
                                      omega
      refine ⟨vs, by simp only [step, through_null hv, if_pos hab0], ?_, ht⟩
      simp only [vecStep, typeOf_map hv, items_map hv, abs, List.take_nil, List.drop_nil, List.append_nil]
      refine (List.ext_getElem? fun i => ?_)
      rw [List.getElem?_set]
      by_cases hi : x = i
      · subst hi; simp only [if_true, List.length_map, hx, List.getElem?_map, hv]; rfl
      · simp [hi]
    · have hn : ¬ (b < a ∨ l.length < b) := by
        simp only [abs] at hbl; omega
      have := through_ok (null := if a = 0 ∧ b = 0 then .done vs else .ub) hv
        (f := eraseRange a b) (l' := l.take a ++ l.drop b) (by simp only [eraseRange, if_neg hn]) ht
        (fun q' hq' => by
          rcases List.mem_append.1 hq' with h1 | h1
          · exact typed_of_get ht hv q' (List.mem_of_mem_take h1)
          · exact typed_of_get ht hv q' (List.mem_of_mem_drop h1))
      simpa only [Sim, refusal, vecStep, typeOf_map hv, items_map hv, abs, step] using this
  | clear x =>
    simp only [InBounds, List.length_map] at hb
    obtain ⟨v, hv⟩ := get_of_lt hb
    rcases v with _ | ⟨ty, l⟩
    · refine ⟨vs, by simp only [step, through_null hv], ?_, ht⟩
      simp only [vecStep, typeOf_map hv, abs]
      refine (List.ext_getElem? fun i => ?_)
      rw [List.getElem?_set]
      by_cases hi : x = i
      · subst hi; simp only [if_true, List.length_map, hb, List.getElem?_map, hv]; rfl
      · simp [hi]
    · have := through_ok (null := .done vs) hv (f := fun _ _ => .ok []) (l' := []) rfl ht (by simp)
      simpa only [Sim, refusal, vecStep, typeOf_map hv, items_map hv, abs, step] using this
  | resize x n =>
    simp only [InBounds, List.length_map] at hb
    obtain ⟨v, hv⟩ := get_of_lt hb
    rcases v with _ | ⟨ty, l⟩
    · simp only [Sim, refusal, typeOf_map hv, abs, if_true, step, through_null hv]
    · simp only [Sim, refusal, typeOf_map hv, abs, reduceCtorEq, if_false]
      have := through_ok (null := .threw .runtimeError vs) hv (f := resize n)
        (l' := l.take n ++ List.replicate (n - l.length) (dflt ty)) rfl ht
        (fun q' hq' => by
          rcases List.mem_append.1 hq' with h1 | h1
          · exact typed_of_get ht hv q' (List.mem_of_mem_take h1)
          · rw [List.eq_of_mem_replicate h1, dflt_type])
      simpa only [vecStep, typeOf_map hv, items_map hv, abs, step, dflt, Option.getD] using this
  | resizeFill x n q =>
    simp only [InBounds, List.length_map] at hb
    obtain ⟨v, hv⟩ := get_of_lt hb
    rcases v with _ | ⟨ty, l⟩
    · simp only [Sim, refusal, foreign_none hv, Bool.false_eq_true, if_false]
      refine ⟨vs.set x (some (q.type, List.replicate n q)), by simp only [step, through_null hv], ?_,
        typed_set ht x (by intro q' hq'; rw [List.eq_of_mem_replicate hq'])⟩
      simp [vecStep, items_map hv, abs, List.map_set]
    · refine sim_cast ht hv (q := q) (l' := l.take n ++ List.replicate (n - l.length) q) rfl rfl (fun h => ?_)
        (fun h => ⟨?_, ?_, ?_⟩)
      · simp only [resizeFill, castTo_bad h]; rfl
      · simp only [resizeFill, castTo_ok h]; rfl
      · intro q' hq'
        rcases List.mem_append.1 hq' with h1 | h1
        · exact typed_of_get ht hv q' (List.mem_of_mem_take h1)
        · rw [List.eq_of_mem_replicate h1, h]
      · simp only [vecStep, items_map hv, abs, h]
  | permute y perm rep =>
    simp only [InBounds, List.length_map] at hb
    obtain ⟨hy, hs, hp⟩ := hb
    obtain ⟨v, hv⟩ := get_of_lt hy
    rw [items_map hv] at hs
    rcases v with _ | ⟨ty, l⟩
    · refine ⟨vs ++ [none], by simp only [step, hv], ?_, typed_append ht trivial⟩
      simp only [vecStep, typeOf_map hv, items_map hv, abs]
      simp [abs]
    · obtain ⟨h1, h2⟩ := permute_ok (dflt ty) l perm rep hs hp
      refine ⟨vs ++ [some (ty, _)], by simp only [step, hv, h1], ?_, typed_append ht (fun q' hq' => typed_of_get ht hv q' (h2.mem_iff.1 hq'))⟩
      simp only [vecStep, typeOf_map hv, items_map hv, abs]
      simp [abs]

/-! ### Types outside the bounds -/

theorem permuteInner_all {α : Type} {P : α → Prop} {this : List α} (h : ∀ a ∈ this, P a) (s : Nat) :
    ∀ (rep i p : Nat) (out : List α) (r : List α × Nat), (∀ a ∈ out, P a) → permuteInner this s rep i p out = .ok r → ∀ a ∈ r.1, P a := by
  intro rep
  induction rep with
  | zero => intro i p out r ho hr; cases hr; exact ho
  | succ rep ih =>
    intro i p out r ho hr
    unfold permuteInner at hr
    split at hr
    · cases hr
    · rename_i x hx
      split at hr
      · refine ih _ _ _ r (fun a ha => ?_) hr
        rcases List.mem_or_eq_of_mem_set ha with h1 | rfl
        · exact ho _ h1
        · exact h _ (List.mem_of_getElem? hx)
      · cases hr

theorem permuteOuter_all {α : Type} {P : α → Prop} {this : List α} (h : ∀ a ∈ this, P a) (rep : List Nat) :
    ∀ (perm : List Nat) (p : Nat) (out r : List α), (∀ a ∈ out, P a) → permuteOuter this rep perm p out = .ok r → ∀ a ∈ r, P a := by
  intro perm
  induction perm with
  | nil => intro p out r ho hr; cases hr; exact ho
  | cons d ds ih =>
    intro p out r ho hr
    unfold permuteOuter at hr
    split at hr
    · cases hr
    · split at hr
      · rename_i h1
        exact ih _ _ _ (permuteInner_all h _ _ _ _ _ _ ho h1) hr
      · cases hr

theorem castTo_type {ty : List GrpType} {q q' : Quantity} (h : castTo ty q = .ok q') : q'.type = ty := by
  unfold castTo at h
  split at h
  · rename_i h1; cases h; exact h1
  · cases h

/-- Every modifier keeps the type. -/
theorem mod_type {f : List GrpType → List Quantity → Res (List Quantity)}
    (hf : ∀ ty l l', (∀ q ∈ l, q.type = ty) → f ty l = .ok l' → ∀ q ∈ l', q.type = ty)
    {vs : List QVec} (ht : ∀ v ∈ vs, Typed v) {x : Nat} {null : Out}
    (hn : ∀ vs', (null = .done vs' ∨ ∃ e, null = .threw e vs') → ∀ v ∈ vs', Typed v) {vs' : List QVec}
    (h : through vs x null f = .done vs' ∨ ∃ e, through vs x null f = .threw e vs') : ∀ v ∈ vs', Typed v := by
  unfold through at h
  split at h
  · rcases h with h | ⟨e, h⟩ <;> cases h
  · exact hn vs' h
  · rename_i ty l hx
    split at h
    · rename_i l' hl'
      rcases h with h | ⟨e, h⟩
      · cases h
        exact typed_set ht x (hf ty l l' (typed_of_get ht hx) hl')
      · cases h
    · rcases h with h | ⟨e, h⟩
      · cases h
      · cases h; exact ht
    · rcases h with h | ⟨e, h⟩ <;> cases h

theorem bindCast {ty : List GrpType} {q : Quantity} {k : Quantity → Res (List Quantity)} {l' : List Quantity}
    (h : (castTo ty q >>= k) = .ok l') : q.type = ty ∧ k q = .ok l' := by
  unfold castTo at h
  split at h
  · rename_i h1; exact ⟨h1, h⟩
  · cases h

theorem put_type (n : Nat) (q : Quantity) (ty : List GrpType) (l l' : List Quantity) (hl : ∀ q ∈ l, q.type = ty)
    (h : put n q ty l = .ok l') : ∀ q ∈ l', q.type = ty := by
  unfold put at h
  split at h
  · cases h
  · obtain ⟨h1, h2⟩ := bindCast h
    cases h2
    intro q' hq'
    rcases List.mem_or_eq_of_mem_set hq' with h3 | rfl
    · exact hl _ h3
    · exact h1

theorem putAt_type (n : Nat) (q : Quantity) (ty : List GrpType) (l l' : List Quantity) (hl : ∀ q ∈ l, q.type = ty)
    (h : putAt n q ty l = .ok l') : ∀ q ∈ l', q.type = ty := by
  unfold putAt at h
  split at h
  · cases h
  · obtain ⟨h1, h2⟩ := bindCast h
    cases h2
    intro q' hq'
    rcases List.mem_or_eq_of_mem_set hq' with h3 | rfl
    · exact hl _ h3
    · exact h1

theorem pushBack_type (q : Quantity) (ty : List GrpType) (l l' : List Quantity) (hl : ∀ q ∈ l, q.type = ty)
    (h : pushBack q ty l = .ok l') : ∀ q ∈ l', q.type = ty := by
  obtain ⟨h1, h2⟩ := bindCast h
  cases h2
  intro q' hq'
  rcases List.mem_append.1 hq' with h3 | h3
  · exact hl _ h3
  · rw [List.mem_singleton.1 h3]; exact h1

theorem insertN_type (p n : Nat) (q : Quantity) (ty : List GrpType) (l l' : List Quantity) (hl : ∀ q ∈ l, q.type = ty)
    (h : insertN p n q ty l = .ok l') : ∀ q ∈ l', q.type = ty := by
  obtain ⟨h1, h2⟩ := bindCast h
  split at h2
  · cases h2
  · cases h2
    intro q' hq'
    rcases List.mem_append.1 hq' with h3 | h3
    · rcases List.mem_append.1 h3 with h3 | h3
      · exact hl _ (List.mem_of_mem_take h3)
      · rw [List.eq_of_mem_replicate h3]; exact h1
    · exact hl _ (List.mem_of_mem_drop h3)

theorem insertRange_type (p : Nat) (src : QVec) (hs : Typed src) (ty : List GrpType) (l l' : List Quantity)
    (hl : ∀ q ∈ l, q.type = ty) (h : insertRange p src ty l = .ok l') : ∀ q ∈ l', q.type = ty := by
  unfold insertRange at h
  split at h
  · cases h
  · rename_i ty' ins
    split at h
    · cases h
    · rename_i h1
      split at h
      · cases h
      · cases h
        have h1' : ty' = ty := Classical.not_not.1 h1
        intro q' hq'
        rcases List.mem_append.1 hq' with h3 | h3
        · rcases List.mem_append.1 h3 with h3 | h3
          · exact hl _ (List.mem_of_mem_take h3)
          · exact (hs _ h3).trans h1'
        · exact hl _ (List.mem_of_mem_drop h3)

theorem eraseRange_type (a b : Nat) (ty : List GrpType) (l l' : List Quantity) (hl : ∀ q ∈ l, q.type = ty)
    (h : eraseRange a b ty l = .ok l') : ∀ q ∈ l', q.type = ty := by
  unfold eraseRange at h
  split at h
  · cases h
  · cases h
    intro q' hq'
    rcases List.mem_append.1 hq' with h3 | h3
    · exact hl _ (List.mem_of_mem_take h3)
    · exact hl _ (List.mem_of_mem_drop h3)

theorem fromList_type : ∀ (qs : List Quantity) (ty : List GrpType) (l l' : List Quantity), (∀ q ∈ l, q.type = ty) →
    fromList qs ty l = .ok l' → ∀ q ∈ l', q.type = ty := by
  intro qs
  induction qs with
  | nil => intro ty l l' hl h; cases h; exact hl
  | cons q qs ih =>
    intro ty l l' hl h
    unfold fromList at h
    cases h1 : pushBack q ty l with
    | error e => rw [h1] at h; cases h
    | ok l1 =>
      rw [h1] at h
      exact ih ty l1 l' (pushBack_type q ty l l1 hl h1) h

theorem step_typed {vs : List QVec} (ht : ∀ v ∈ vs, Typed v) (c : VecCmd) {vs' : List QVec}
    (h : step vs c = .done vs' ∨ ∃ e, step vs c = .threw e vs') : ∀ v ∈ vs', Typed v := by
  have nul : ∀ (o : Out), o = .ub ∨ o = .done vs ∨ (∃ e, o = .threw e vs) →
      ∀ vs', (o = .done vs' ∨ ∃ e, o = .threw e vs') → ∀ v ∈ vs', Typed v := by
    intro o ho vs' h
    rcases ho with rfl | rfl | ⟨e, rfl⟩ <;> rcases h with h | ⟨e', h⟩ <;> cases h <;> exact ht
  have ite0 : ∀ (P : Prop) [Decidable P], (if P then Out.threw .runtimeError vs else Out.ub) = .ub ∨
      (if P then Out.threw .runtimeError vs else Out.ub) = .done vs ∨
      ∃ e, (if P then Out.threw .runtimeError vs else Out.ub) = .threw e vs := by
    intro P _
    by_cases hP : P
    · rw [if_pos hP]; exact Or.inr (Or.inr ⟨_, rfl⟩)
    · rw [if_neg hP]; exact Or.inl rfl
  have ite1 : ∀ (P : Prop) [Decidable P], (if P then Out.done vs else Out.ub) = .ub ∨
      (if P then Out.done vs else Out.ub) = .done vs ∨ ∃ e, (if P then Out.done vs else Out.ub) = .threw e vs := by
    intro P _
    by_cases hP : P
    · rw [if_pos hP]; exact Or.inr (Or.inl rfl)
    · rw [if_neg hP]; exact Or.inl rfl
  cases c with
  | new =>
    rcases h with h | ⟨e, h⟩ <;> cases h
    exact typed_append ht trivial
  | fill n q =>
    rcases h with h | ⟨e, h⟩ <;> cases h
    refine typed_append ht (fun q' hq' => ?_)
    rw [List.eq_of_mem_replicate hq']
  | list qs =>
    cases qs with
    | nil => rcases h with h | ⟨e, h⟩ <;> cases h
    | cons q qs =>
      simp only [step] at h
      cases h1 : fromList (q :: qs) q.type [] with
      | ok l =>
        rw [h1] at h
        rcases h with h | ⟨e, h⟩ <;> cases h
        exact typed_append ht (fromList_type _ _ _ _ (by simp) h1)
      | error e =>
        rw [h1] at h
        cases e with
        | throw e => rcases h with h | ⟨e, h⟩ <;> cases h; exact ht
        | ub => rcases h with h | ⟨e, h⟩ <;> cases h
  | copy y =>
    simp only [step] at h
    split at h
    · rename_i v hv
      rcases h with h | ⟨e, h⟩ <;> cases h
      exact typed_append ht (typed_of_get ht hv)
    · rcases h with h | ⟨e, h⟩ <;> cases h
  | take y =>
    simp only [step] at h
    split at h
    · rename_i v hv
      rcases h with h | ⟨e, h⟩ <;> cases h
      exact typed_append (typed_set ht y (v := none) trivial) (typed_of_get ht hv)
    · rcases h with h | ⟨e, h⟩ <;> cases h
  | assign x y =>
    simp only [step] at h
    split at h
    · rename_i v hv
      split at h
      · rcases h with h | ⟨e, h⟩ <;> cases h
        exact typed_set ht x (typed_of_get ht hv)
      · rcases h with h | ⟨e, h⟩ <;> cases h
    · rcases h with h | ⟨e, h⟩ <;> cases h
  | assignTake x y =>
    simp only [step] at h
    split at h
    · rename_i v hv
      split at h
      · rcases h with h | ⟨e, h⟩ <;> cases h
        exact typed_set (typed_set ht y (v := none) trivial) x (typed_of_get ht hv)
      · rcases h with h | ⟨e, h⟩ <;> cases h
    · rcases h with h | ⟨e, h⟩ <;> cases h
  | swap x y =>
    simp only [step] at h
    split at h
    · rename_i v w hv hw
      rcases h with h | ⟨e, h⟩ <;> cases h
      exact typed_set (typed_set ht x (typed_of_get ht hw)) y (typed_of_get ht hv)
    · rcases h with h | ⟨e, h⟩ <;> cases h
  | put x n q => exact mod_type (put_type n q) ht (nul _ (Or.inl rfl)) h
  | putAt x n q => exact mod_type (putAt_type n q) ht (nul _ (Or.inr (Or.inr ⟨_, rfl⟩))) h
  | pushBack x q =>
    refine mod_type (pushBack_type q) ht (fun vs' h' => ?_) h
    rcases h' with h' | ⟨e, h'⟩ <;> cases h'
    exact typed_set ht x (by intro q' hq'; rw [List.mem_singleton.1 hq'])
  | popBack x =>
    refine mod_type (fun ty l l' hl h' => ?_) ht (nul _ (Or.inr (Or.inr ⟨_, rfl⟩))) h
    unfold popBack at h'
    split at h'
    · cases h'
    · cases h'; exact fun q hq => hl q (List.dropLast_subset _ hq)
  | insert x p q => exact mod_type (insertN_type p 1 q) ht (nul _ (ite0 _)) h
  | insertN x p n q => exact mod_type (insertN_type p n q) ht (nul _ (ite0 _)) h
  | insertRange x p y a b =>
    simp only [step] at h
    split at h
    · rcases h with h | ⟨e, h⟩ <;> cases h
    · split at h
      · exact mod_type (insertRange_type p none trivial) ht (nul _ (ite0 _)) h
      · rcases h with h | ⟨e, h⟩ <;> cases h
    · rename_i ty l hv
      split at h
      · rcases h with h | ⟨e, h⟩ <;> cases h
      · exact mod_type (insertRange_type p (some (ty, (l.take b).drop a))
          (fun q hq => typed_of_get ht hv q (List.mem_of_mem_take (List.mem_of_mem_drop hq)))) ht (nul _ (ite0 _)) h
  | insertReversed x p y =>
    simp only [step] at h
    split at h
    · rcases h with h | ⟨e, h⟩ <;> cases h
    · rename_i v hv
      split at h
      · rcases h with h | ⟨e, h⟩ <;> cases h
      · refine mod_type (insertRange_type p _ ?_) ht (nul _ (ite0 _)) h
        rcases v with _ | ⟨ty, l⟩
        · trivial
        · exact fun q hq => typed_of_get ht hv q (List.mem_reverse.1 hq)
  | erase x p => exact mod_type (eraseRange_type p (p + 1)) ht (nul _ (ite1 _)) h
  | eraseRange x a b => exact mod_type (eraseRange_type a b) ht (nul _ (ite1 _)) h
  | clear x =>
    refine mod_type (f := fun _ _ => .ok []) (x := x) (null := .done vs) (fun ty l l' hl h' => ?_) ht (nul _ (Or.inr (Or.inl rfl))) h
    cases h'; simp
  | resize x n =>
    refine mod_type (f := resize n) (x := x) (fun ty l l' hl h' => ?_) ht (nul (.threw .runtimeError vs) (Or.inr (Or.inr ⟨_, rfl⟩))) h
    cases h'
    intro q hq
    rcases List.mem_append.1 hq with h3 | h3
    · exact hl _ (List.mem_of_mem_take h3)
    · rw [List.eq_of_mem_replicate h3]; exact dflt_type ty
  | resizeFill x n q =>
    refine mod_type (fun ty l l' hl h' => ?_) ht (fun vs' h' => ?_) h
    · obtain ⟨h1, h2⟩ := bindCast h'
      cases h2
      intro q' hq'
      rcases List.mem_append.1 hq' with h3 | h3
      · exact hl _ (List.mem_of_mem_take h3)
      · rw [List.eq_of_mem_replicate h3]; exact h1
    · rcases h' with h' | ⟨e, h'⟩ <;> cases h'
      exact typed_set ht x (by intro q' hq'; rw [List.eq_of_mem_replicate hq'])
  | permute y perm rep =>
    simp only [step] at h
    split at h
    · rcases h with h | ⟨e, h⟩ <;> cases h
    · rcases h with h | ⟨e, h⟩ <;> cases h
      exact typed_append ht trivial
    · rename_i ty l hv
      cases h1 : qvPermute (dflt ty) l perm rep with
      | ok l' =>
        rw [h1] at h
        rcases h with h | ⟨e, h⟩ <;> cases h
        refine typed_append ht (permuteOuter_all (P := fun q : Quantity => q.type = ty) (typed_of_get ht hv) rep perm 0 _ l' ?_ h1)
        intro q hq
        rw [List.eq_of_mem_replicate hq]; exact dflt_type ty
      | error e =>
        rw [h1] at h
        cases e with
        | throw e => rcases h with h | ⟨e, h⟩ <;> cases h; exact ht
        | ub => rcases h with h | ⟨e, h⟩ <;> cases h

end QVec
end QuantiT
