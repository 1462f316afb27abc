import Verif.Model.AnyStore
import Verif.Lemmas.Quantity
/-
Property C114: variables that hold conserved quantities of any type.
-/
namespace QuantiT
namespace AnyQ
open Spec

/-- What a variable holds. -/
def abs (v : AnyQ) : Option Charge := v.impl.map chargeOf

/-- The charge of a variable is admissible. -/
def Sound (v : AnyQ) : Prop := ∀ q, v.impl = some q → QValid q

theorem kinds_chargeOf (q : Quantity) : kinds (chargeOf q) = q.type := by simp [kinds, chargeOf, Quantity.type]

theorem plus_chargeOf : ∀ {a b : Quantity}, a.type = b.type → QValid a → QValid b →
    plus (chargeOf a) (chargeOf b) = chargeOf (Quantity.opL a b)
  | [], _, _, _, _ => by simp [plus, chargeOf, Quantity.opL]
  | _ :: _, [], h, _, _ => by simp [Quantity.type] at h
  | x :: a, y :: b, h, ha, hb => by
    rw [Quantity.cons_type, Quantity.cons_type] at h
    obtain ⟨h1, h2⟩ := List.cons.inj h
    rw [Quantity.valid_cons] at ha hb
    have ih := plus_chargeOf h2 ha.2 hb.2
    have e := Comp.opCond_getVal h1 ha.1 hb.1
    simp only [plus, chargeOf, Quantity.opL, List.map_cons, List.zipWith_cons_cons, Comp.type_opCond] at ih ⊢
    rw [ih, e]

theorem minus_chargeOf {a : Quantity} (ha : QValid a) : minus (chargeOf a) = chargeOf a.inverse := by
  unfold minus chargeOf Quantity.inverse
  rw [List.map_map, List.map_map]
  refine List.map_congr_left fun x hx => ?_
  simp [Comp.type_inverse, Comp.inverse_getVal (ha x hx)]

theorem zero_chargeOf (a : Quantity) : zero (chargeOf a) = chargeOf a.neutral := by
  unfold zero chargeOf Quantity.neutral Quantity.type
  rw [List.map_map, List.map_map, List.map_map]
  refine List.map_congr_left fun x _ => ?_
  cases x <;> rfl

theorem opCond_false_ok {a b : Quantity} (h : a.type = b.type) (ha : QValid a) : a.opCond b false = .ok a := by
  unfold Quantity.opCond Quantity.cast
  rw [if_pos h]
  congr 1
  have hlen : a.length = b.length := by simpa [Quantity.type] using congrArg List.length h
  clear h
  induction a generalizing b with
  | nil => simp
  | cons x a ih =>
    cases b with
    | nil => simp at hlen
    | cons y b =>
      rw [Quantity.valid_cons] at ha
      have ih := ih (b := b) ha.2 (by simpa using hlen)
      dsimp only at ih ⊢
      rw [List.zipWith_cons_cons, Comp.opCond_false ha.1, ih]

theorem opTo_ok {a b : Quantity} (h : a.type = b.type) : a.opTo b = .ok (Quantity.opL a b) := by
  simp [Quantity.opTo, Quantity.cast, h, Quantity.opL]

theorem opTo_bad {a b : Quantity} (h : a.type ≠ b.type) : a.opTo b = Res.throw .badCast := by
  simp [Quantity.opTo, Quantity.cast, h]

theorem held_abs {vs : List AnyQ} {x : Nat} {v : AnyQ} (h : vs[x]? = some v) : held (vs.map abs) x = abs v := by
  simp [held, h]

theorem held_some {vs : List AnyQ} {x : Nat} (h : held (vs.map abs) x ≠ none) :
    ∃ q, vs[x]? = some ⟨some q⟩ ∧ held (vs.map abs) x = some (chargeOf q) := by
  cases hx : vs[x]? with
  | none => exact absurd (by simp [held, hx]) h
  | some v =>
    obtain ⟨i⟩ := v
    cases i with
    | none => exact absurd (by simp [held, hx, abs]) h
    | some q => exact ⟨q, rfl, by simp [held, hx, abs]⟩

theorem sound_get {vs : List AnyQ} (hs : ∀ v ∈ vs, Sound v) {x : Nat} {q : Quantity} (h : vs[x]? = some ⟨some q⟩) : QValid q :=
  hs _ (List.mem_of_getElem? h) q rfl

theorem get_some {α : Type} {vs : List α} {x : Nat} (h : x < vs.length) : ∃ v, vs[x]? = some v := ⟨_, List.getElem?_eq_getElem h⟩

theorem sound_set {vs : List AnyQ} (hs : ∀ v ∈ vs, Sound v) (x : Nat) {v : AnyQ} (hv : Sound v) : ∀ w ∈ vs.set x v, Sound w := by
  intro w hw
  rcases List.mem_or_eq_of_mem_set hw with h | rfl
  · exact hs w h
  · exact hv

theorem sound_push {vs : List AnyQ} (hs : ∀ v ∈ vs, Sound v) {v : AnyQ} (hv : Sound v) : ∀ w ∈ vs ++ [v], Sound w := by
  intro w hw
  rcases List.mem_append.1 hw with h | h
  · exact hs w h
  · rw [List.mem_singleton.1 h]; exact hv

theorem sound_some {q : Quantity} (h : QValid q) : Sound ⟨some q⟩ := by
  intro q' e
  cases e
  exact h

theorem sound_none : Sound ⟨none⟩ := by intro q e; cases e

theorem sound_default : Sound default := sound_some (by intro x hx; rw [List.mem_singleton.1 hx]; simp [CompValid, CN.neutral])

theorem sound_copy {v : AnyQ} (h : Sound v) : Sound v.copy := by
  unfold copy
  cases hv : v.impl with
  | none => exact sound_default
  | some q => exact sound_some (h q hv)

theorem abs_copy (v : AnyQ) : abs v.copy = some ((abs v).getD trivialCharge) := by
  obtain ⟨i⟩ := v
  cases i <;> rfl

/-- A statement does what it means. -/
def Sim (vs : List AnyQ) (c : AnyCmd) : Prop :=
  if mismatch (vs.map abs) c then step vs c = .threw .badCast vs
  else ∃ vs', step vs c = .done vs' ∧ vs'.map abs = anyStep (vs.map abs) c ∧ ∀ v ∈ vs', Sound v

/-- A statement that brings the charges of two variables together. -/
theorem sim_pair {vs : List AnyQ} (hs : ∀ v ∈ vs, Sound v) {x y : Nat} (hx : held (vs.map abs) x ≠ none) (hy : held (vs.map abs) y ≠ none)
    {c : AnyCmd} (hm : mismatch (vs.map abs) c = decide (kinds ((held (vs.map abs) x).getD []) ≠ kinds ((held (vs.map abs) y).getD [])))
    (h : ∀ a b, vs[x]? = some ⟨some a⟩ → vs[y]? = some ⟨some b⟩ → held (vs.map abs) x = some (chargeOf a) → held (vs.map abs) y = some (chargeOf b) →
      QValid a → QValid b → (a.type ≠ b.type → step vs c = .threw .badCast vs) ∧
      (a.type = b.type → ∃ vs', step vs c = .done vs' ∧ vs'.map abs = anyStep (vs.map abs) c ∧ ∀ v ∈ vs', Sound v)) : Sim vs c := by
  obtain ⟨a, ha, ha'⟩ := held_some hx
  obtain ⟨b, hb, hb'⟩ := held_some hy
  obtain ⟨h1, h2⟩ := h a b ha hb ha' hb' (sound_get hs ha) (sound_get hs hb)
  unfold Sim
  rw [hm, ha', hb', Option.getD_some, Option.getD_some, kinds_chargeOf, kinds_chargeOf]
  by_cases ht : a.type = b.type
  · rw [if_neg (by simpa using ht)]
    exact h2 ht
  · rw [if_pos (by simpa using ht)]
    exact h1 ht

theorem sim {vs : List AnyQ} (hs : ∀ v ∈ vs, Sound v) (c : AnyCmd) (hc : AnyAllowed (vs.map abs) c) : Sim vs c := by
  have plain : mismatch (vs.map abs) c = false → (∃ vs', step vs c = .done vs' ∧ vs'.map abs = anyStep (vs.map abs) c ∧ ∀ v ∈ vs', Sound v) →
      Sim vs c := by
    intro h1 h2
    unfold Sim
    rw [if_neg (by rw [h1]; decide)]
    exact h2
  cases c with
  | new => exact plain rfl ⟨_, rfl, by simp [anyStep]; rfl, sound_push hs sound_default⟩
  | make q => exact plain rfl ⟨_, rfl, by simp [anyStep]; rfl, sound_push hs (sound_some hc)⟩
  | copy y =>
    obtain ⟨v, hv⟩ := get_some (show y < vs.length by simpa [AnyAllowed] using hc)
    refine plain rfl ⟨_, by simp only [step, hv], ?_, sound_push hs (sound_copy (hs v (List.mem_of_getElem? hv)))⟩
    simp only [anyStep, List.map_append, List.map_cons, List.map_nil, held_abs hv, abs_copy]
  | take y =>
    obtain ⟨v, hv⟩ := get_some (show y < vs.length by simpa [AnyAllowed] using hc)
    refine plain rfl ⟨_, by simp only [step, hv]; rfl, ?_, sound_push (sound_set hs y sound_none) (hs v (List.mem_of_getElem? hv))⟩
    simp only [anyStep, List.map_append, List.map_cons, List.map_nil, held_abs hv, List.map_set]
    rfl
  | assign x y =>
    refine sim_pair hs hc.1 hc.2 rfl fun a b ha hb ha' hb' va vb => ⟨fun ht => ?_, fun ht => ?_⟩
    · simp only [step, ha, hb, assignCopy, Quantity.cast, if_neg ht]; rfl
    · refine ⟨vs.set x ⟨some b⟩, ?_, ?_, sound_set hs x (sound_some vb)⟩
      · simp only [step, ha, hb, assignCopy, Quantity.cast, if_pos ht]; rfl
      · simp only [anyStep, List.map_set, hb']; rfl
  | assignRef x y =>
    obtain ⟨v, hv⟩ := get_some (show x < vs.length by simpa using hc.1)
    obtain ⟨b, hb, hb'⟩ := held_some hc.2
    refine plain rfl ⟨vs.set x ⟨some b⟩, ?_, ?_, sound_set hs x (sound_some (sound_get hs hb))⟩
    · simp only [step, hv, deref, hb]; rfl
    · simp only [anyStep, List.map_set, hb']; rfl
  | assignTake x y =>
    obtain ⟨v, hv⟩ := get_some (show x < vs.length by simpa using hc.1)
    obtain ⟨w, hw⟩ := get_some (show y < vs.length by simpa using hc.2)
    refine plain rfl ⟨(vs.set x w).set y v, ?_, ?_, sound_set (sound_set hs x (hs w (List.mem_of_getElem? hw))) y (hs v (List.mem_of_getElem? hv))⟩
    · simp only [step, hv, hw]; rfl
    · simp only [anyStep, List.map_set, held_abs hv, held_abs hw]
  | swap x y =>
    obtain ⟨v, hv⟩ := get_some (show x < vs.length by simpa using hc.1)
    obtain ⟨w, hw⟩ := get_some (show y < vs.length by simpa using hc.2)
    refine plain rfl ⟨(vs.set x w).set y v, ?_, ?_, sound_set (sound_set hs x (hs w (List.mem_of_getElem? hw))) y (hs v (List.mem_of_getElem? hv))⟩
    · simp only [step, hv, hw]
    · simp only [anyStep, List.map_set, held_abs hv, held_abs hw]
  | swapRef x y =>
    refine sim_pair hs hc.1 hc.2 rfl fun a b ha hb ha' hb' va vb => ⟨fun ht => ?_, fun ht => ?_⟩
    · simp only [step, deref, ha, hb, Quantity.cast, if_neg ht]; rfl
    · refine ⟨(vs.set x ⟨some b⟩).set y ⟨some a⟩, ?_, ?_, sound_set (sound_set hs x (sound_some vb)) y (sound_some va)⟩
      · simp only [step, deref, ha, hb, Quantity.cast, if_pos ht]; rfl
      · simp only [anyStep, List.map_set, ha', hb']; rfl
  | mulIn x y =>
    refine sim_pair hs hc.1 hc.2 rfl fun a b ha hb ha' hb' va vb => ⟨fun ht => ?_, fun ht => ?_⟩
    · simp only [step, deref, ha, hb, Quantity.op_bad ht]; rfl
    · refine ⟨vs.set x ⟨some (Quantity.opL a b)⟩, ?_, ?_, sound_set hs x (sound_some (Quantity.valid_opL ht va vb))⟩
      · simp only [step, deref, ha, hb, Quantity.op_ok ht]; rfl
      · simp only [anyStep, List.map_set, ha', hb', Option.getD_some, plus_chargeOf ht va vb]; rfl
  | opIn x y k =>
    refine sim_pair hs hc.1 hc.2 rfl fun a b ha hb ha' hb' va vb => ⟨fun ht => ?_, fun ht => ?_⟩
    · simp only [step, deref, ha, hb, Quantity.opCond, Quantity.cast, if_neg ht]; rfl
    · cases k with
      | false =>
        refine ⟨vs.set x ⟨some a⟩, ?_, ?_, sound_set hs x (sound_some va)⟩
        · simp only [step, deref, ha, hb, opCond_false_ok ht va]; rfl
        · simp only [anyStep, List.map_set]
          have : (vs.map abs)[x]? = some (abs ⟨some a⟩) := by simp [ha]
          rw [if_neg (by decide)]
          refine List.ext_getElem? fun i => ?_
          rw [List.getElem?_set]
          split
          · next h => subst h; rw [this]; simp [(List.getElem?_eq_some_iff.1 ha).1]
          · rfl
      | true =>
        refine ⟨vs.set x ⟨some (Quantity.opL a b)⟩, ?_, ?_, sound_set hs x (sound_some (Quantity.valid_opL ht va vb))⟩
        · have := Quantity.op_ok ht
          unfold Quantity.op at this
          simp only [step, deref, ha, hb, this]; rfl
        · simp only [anyStep, List.map_set, ha', hb', Option.getD_some, plus_chargeOf ht va vb, if_true]; rfl
  | mul x y =>
    refine sim_pair hs hc.1 hc.2 rfl fun a b ha hb ha' hb' va vb => ⟨fun ht => ?_, fun ht => ?_⟩
    · simp only [step, deref, ha, hb, Quantity.op_bad ht]; rfl
    · refine ⟨vs ++ [⟨some (Quantity.opL a b)⟩], ?_, ?_, sound_push hs (sound_some (Quantity.valid_opL ht va vb))⟩
      · simp only [step, deref, ha, hb, Quantity.op_ok ht]; rfl
      · simp only [anyStep, List.map_append, ha', hb', Option.getD_some, plus_chargeOf ht va vb]; rfl
  | mulTakeRight x y =>
    refine sim_pair hs hc.1 hc.2 rfl fun a b ha hb ha' hb' va vb => ⟨fun ht => ?_, fun ht => ?_⟩
    · simp only [step, deref, ha, hb, opTo_bad ht]; rfl
    · refine ⟨vs.set y ⟨none⟩ ++ [⟨some (Quantity.opL a b)⟩], ?_, ?_, sound_push (sound_set hs y sound_none) (sound_some (Quantity.valid_opL ht va vb))⟩
      · simp only [step, deref, ha, hb, opTo_ok ht]; rfl
      · simp only [anyStep, List.map_append, List.map_set, ha', hb', Option.getD_some, plus_chargeOf ht va vb]; rfl
  | mulTakeLeft x y =>
    refine sim_pair hs hc.1 hc.2 rfl fun a b ha hb ha' hb' va vb => ⟨fun ht => ?_, fun ht => ?_⟩
    · simp only [step, deref, ha, hb, Quantity.op_bad ht]; rfl
    · refine ⟨vs.set x ⟨none⟩ ++ [⟨some (Quantity.opL a b)⟩], ?_, ?_, sound_push (sound_set hs x sound_none) (sound_some (Quantity.valid_opL ht va vb))⟩
      · simp only [step, deref, ha, hb, Quantity.op_ok ht]; rfl
      · simp only [anyStep, List.map_append, List.map_set, ha', hb', Option.getD_some, plus_chargeOf ht va vb]; rfl
  | mulTakeBoth x y =>
    refine sim_pair hs hc.1 hc.2 rfl fun a b ha hb ha' hb' va vb => ⟨fun ht => ?_, fun ht => ?_⟩
    · simp only [step, deref, ha, hb, Quantity.op_bad ht]; rfl
    · refine ⟨vs.set x ⟨none⟩ ++ [⟨some (Quantity.opL a b)⟩], ?_, ?_, sound_push (sound_set hs x sound_none) (sound_some (Quantity.valid_opL ht va vb))⟩
      · simp only [step, deref, ha, hb, Quantity.op_ok ht]; rfl
      · simp only [anyStep, List.map_append, List.map_set, ha', hb', Option.getD_some, plus_chargeOf ht va vb]; rfl
  | inverse x =>
    obtain ⟨v, hv⟩ := get_some (show x < vs.length by simpa [AnyAllowed] using hc)
    have sv := sound_copy (hs v (List.mem_of_getElem? hv))
    have av := abs_copy v
    obtain ⟨q, hq⟩ : ∃ q, v.copy.impl = some q := by unfold copy; split <;> exact ⟨_, rfl⟩
    refine plain rfl ⟨vs ++ [⟨some q.inverse⟩], ?_, ?_, sound_push hs (sound_some (Quantity.valid_inverse (sv q hq)))⟩
    · simp only [step, hv, hq]; rfl
    · simp only [anyStep, List.map_append, held_abs hv]
      have : (abs v).getD trivialCharge = chargeOf q := by
        rw [abs, hq] at av
        exact (Option.some.inj av).symm
      rw [this, minus_chargeOf (sv q hq)]
      rfl
  | inverseTake x =>
    obtain ⟨a, ha, ha'⟩ := held_some hc
    refine plain rfl ⟨vs.set x ⟨none⟩ ++ [⟨some a.inverse⟩], ?_, ?_,
      sound_push (sound_set hs x sound_none) (sound_some (Quantity.valid_inverse (sound_get hs ha)))⟩
    · simp only [step, deref, ha]; rfl
    · simp only [anyStep, List.map_append, List.map_set, ha', Option.getD_some, minus_chargeOf (sound_get hs ha)]; rfl
  | inverseIn x =>
    obtain ⟨a, ha, ha'⟩ := held_some hc
    refine plain rfl ⟨vs.set x ⟨some a.inverse⟩, ?_, ?_, sound_set hs x (sound_some (Quantity.valid_inverse (sound_get hs ha)))⟩
    · simp only [step, deref, ha]
    · simp only [anyStep, List.map_set, ha', Option.getD_some, minus_chargeOf (sound_get hs ha)]; rfl
  | neutral x =>
    obtain ⟨a, ha, ha'⟩ := held_some hc
    refine plain rfl ⟨vs ++ [⟨some a.neutral⟩], ?_, ?_, sound_push hs (sound_some (Quantity.valid_neutral (sound_get hs ha)))⟩
    · simp only [step, deref, ha]
    · simp only [anyStep, List.map_append, ha', Option.getD_some, zero_chargeOf]; rfl

/-- What is logged for a statement. -/
def logged (b : Bool) : Option Exn := if b then some .badCast else none

theorem run_sim : ∀ (p : List AnyCmd) (vs : List AnyQ), (∀ v ∈ vs, Sound v) → AllAnyAllowed p (vs.map abs) →
    ∃ vs', run p vs = some (vs', (anyRun p (vs.map abs)).2.map logged) ∧ vs'.map abs = (anyRun p (vs.map abs)).1 ∧ ∀ v ∈ vs', Sound v := by
  intro p
  induction p with
  | nil => intro vs hs _; exact ⟨vs, rfl, rfl, hs⟩
  | cons c p ih =>
    intro vs hs hb
    obtain ⟨hb1, hb2⟩ := hb
    have h := sim hs c hb1
    unfold Sim at h
    cases hr : mismatch (vs.map abs) c with
    | false =>
      rw [hr] at h
      obtain ⟨vs1, h1, h2, h3⟩ := h
      rw [hr, if_neg (by decide), ← h2] at hb2
      obtain ⟨vs', h4, h5, h6⟩ := ih vs1 h3 hb2
      refine ⟨vs', ?_, ?_, h6⟩
      · simp [run, h1, h4, anyRun, hr, ← h2, logged]
      · simp [anyRun, hr, ← h2, h5]
    | true =>
      rw [hr, if_pos rfl] at h
      rw [hr, if_pos rfl] at hb2
      obtain ⟨vs', h4, h5, h6⟩ := ih vs hs hb2
      refine ⟨vs', ?_, ?_, h6⟩
      · simp [run, h, h4, anyRun, hr, logged]
      · simp [anyRun, hr, h5]

/-- C114: a program over any number of variables that does not use the charge of a variable that was moved from is defined.  Every variable holds
what it would if charges were plain values: sums, opposites and copies of what was written in the program, of no variable but those named.
A statement that brings charges of different groups together throws `bad_cast`, which is the only exception, and changes nothing. -/
theorem C114_program_partial (p : List AnyCmd) (hb : AllAnyAllowed p []) :
    ∃ vs, run p [] = some (vs, (anyRun p []).2.map logged) ∧ vs.map abs = (anyRun p []).1 := by
  obtain ⟨vs, h1, h2, _⟩ := run_sim p [] (by simp) hb
  exact ⟨vs, h1, h2⟩

/-- C114 is false of variables that were moved from: assigning one a charge held by another variable, or reading it, is undefined, while a
move into it or an assignment from a reference is not. -/
theorem C114_moved_fails (vs : List AnyQ) (x y : Nat) (q : Quantity) (hx : vs[x]? = some ⟨none⟩) (hy : vs[y]? = some ⟨some q⟩) :
    step vs (.assign x y) = .ub ∧ step vs (.assign y x) = .ub ∧ step vs (.assignRef y x) = .ub ∧ step vs (.swapRef x y) = .ub ∧
    step vs (.mul x y) = .ub ∧ step vs (.mul y x) = .ub ∧ step vs (.mulIn x y) = .ub ∧ step vs (.inverseIn x) = .ub ∧ step vs (.neutral x) = .ub ∧
    step vs (.assignRef x y) = .done (vs.set x ⟨some q⟩) ∧ step vs (.assignTake x y) = .done ((vs.set x ⟨some q⟩).set y ⟨none⟩) := by
  simp [step, hx, hy, assignCopy, orThrow, deref, assignRef, assignMove, Res.ub]

/-- Such variables are met: after a move, and after a product of temporaries made of variables. -/
theorem C114_moved_reached (vs : List AnyQ) (x y : Nat) (a b : Quantity) (hx : vs[x]? = some ⟨some a⟩) (hy : vs[y]? = some ⟨some b⟩) (ht : a.type = b.type) :
    (∃ vs', step vs (.take x) = .done vs' ∧ vs'[x]? = some ⟨none⟩) ∧
    (∃ vs', step vs (.mulTakeRight x y) = .done vs' ∧ vs'[y]? = some ⟨none⟩) ∧
    ∃ vs', step vs (.mulTakeBoth x y) = .done vs' ∧ vs'[x]? = some ⟨none⟩ ∧ (x ≠ y → vs'[y]? = some ⟨some b⟩) := by
  have lx : x < vs.length := (List.getElem?_eq_some_iff.1 hx).1
  have ly : y < vs.length := (List.getElem?_eq_some_iff.1 hy).1
  refine ⟨⟨vs.set x ⟨none⟩ ++ [⟨some a⟩], ?_, ?_⟩, ⟨vs.set y ⟨none⟩ ++ [⟨some (Quantity.opL a b)⟩], ?_, ?_⟩,
    ⟨vs.set x ⟨none⟩ ++ [⟨some (Quantity.opL a b)⟩], ?_, ?_, fun h => ?_⟩⟩
  · simp only [step, hx]; rfl
  · rw [List.getElem?_append_left (by simpa using lx)]; simp [lx]
  · simp only [step, deref, hx, hy, opTo_ok ht]; rfl
  · rw [List.getElem?_append_left (by simpa using ly)]; simp [ly]
  · simp only [step, deref, hx, hy, Quantity.op_ok ht]; rfl
  · rw [List.getElem?_append_left (by simpa using lx)]; simp [lx]
  · rw [List.getElem?_append_left (by simpa using ly), List.getElem?_set_ne h]; exact hy

/-- The exchange the move assignment makes is seen by the program: what was in `x` lives on in `y`. -/
theorem C114_exchange (vs : List AnyQ) (x y : Nat) (v w : AnyQ) (hx : vs[x]? = some v) (hy : vs[y]? = some w) :
    ∃ vs', step vs (.assignTake x y) = .done vs' ∧ vs'[x]? = some w ∧ vs'[y]? = some v := by
  have lx : x < vs.length := (List.getElem?_eq_some_iff.1 hx).1
  have ly : y < vs.length := (List.getElem?_eq_some_iff.1 hy).1
  refine ⟨(vs.set x w).set y v, by simp only [step, hx, hy]; rfl, ?_, by simp [ly]⟩
  by_cases h : x = y
  · subst h
    rw [hx] at hy
    cases hy
    simp [lx]
  · rw [List.getElem?_set_ne (Ne.symm h)]
    simp [lx]

/-- A program that meets exceptions, a move and the trivial charge. -/
def sample : List AnyCmd :=
  [.make [.c 2 (CN.ofInt 1), .z (ZQ.ofInt 3)], .make [.c 2 (CN.ofInt 1), .z (ZQ.ofInt (-1))], .new, .assign 2 0, .mul 0 1, .assignRef 2 3, .inverse 2,
    .take 1, .copy 1, .mulIn 0 0]

example : AllAnyAllowed sample [] ∧ (anyRun sample []).2 = [false, false, false, true, false, false, false, false, false, false] ∧
    (anyRun sample []).1 = [some [(.c 2, 0), (.z, 6)], none, some [(.c 2, 0), (.z, 2)], some [(.c 2, 0), (.z, 2)], some [(.c 2, 0), (.z, -2)],
      some [(.c 2, 1), (.z, -1)], some [(.c 1, 0)]] := by
  refine ⟨?_, by decide, by decide⟩
  unfold sample
  simp only [AllAnyAllowed, AnyAllowed]
  refine ⟨?_, ?_, trivial, by decide, by decide, by decide, by decide, by decide, by decide, by decide, trivial⟩ <;>
  · intro x hx
    simp only [List.mem_cons, List.not_mem_nil, or_false] at hx
    rcases hx with rfl | rfl <;> simp [CompValid] <;> decide

end AnyQ
end QuantiT
