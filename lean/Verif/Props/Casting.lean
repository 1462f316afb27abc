import Verif.Spec.Casting
import Verif.Props.ChainStore
/-
C128: conversions between trains, states and operators.
-/
namespace QuantiT
namespace CT
open Spec MP
variable {T : Type}

theorem put_self (f : Nat → α) (i : Nat) (v : α) : put f i v i = v := if_pos rfl
theorem put_other (f : Nat → α) {i j : Nat} (v : α) (h : j ≠ i) : put f i v j = f j := if_neg h

theorem mkMpo_ok {sizes : List (List Nat)} {u : Unit} (h : mkMpo sizes = .ok u) : Linked 4 sizes := by
  have h0 := h
  unfold mkMpo at h
  cases hc : checkRanks 4 sizes with
  | error e => rw [hc] at h; cases h
  | ok b =>
    rw [hc] at h
    simp only [bind, Except.bind] at h
    cases b with
    | false => simp at h; cases h
    | true =>
      have hne : sizes ≠ [] := by rintro rfl; cases hc
      have hr : ∀ s ∈ sizes, s.length = 4 := by
        unfold checkRanks at hc
        cases sizes with
        | nil => cases hc
        | cons ds rest =>
          simp only at hc
          cases hd : ds[0]? with
          | none => rw [hd] at hc; cases hc
          | some prev => rw [hd] at hc; exact ranksLoop_true 4 _ _ hc
      have hp := C44_mpo_partial sizes hne fun s hs => by rw [hr s hs]; omega
      by_contra hl
      rw [hp.2 hl] at h0
      cases h0

theorem mkBMps_ok [AddCommMonoid G] [DecidableEq G] {chain : List (Shape G)} {oc c : Nat} (h : mkBMps chain oc = .ok c) :
    c = oc ∧ ChargeLinked 3 chain ∧ oc < chain.length := by
  have hne : chain ≠ [] := by rintro rfl; cases h
  have hp := (C44_block_partial chain oc hne).1
  by_cases hl : ChargeLinked 3 chain ∧ oc < chain.length
  · rw [hp.1 hl] at h
    injection h with h
    exact ⟨h.symm, hl⟩
  · rw [hp.2 hl] at h; cases h

theorem mkBMpo_ok [AddCommMonoid G] [DecidableEq G] {chain : List (Shape G)} {u : Unit} (h : mkBMpo chain = .ok u) : ChargeLinked 4 chain := by
  have hne : chain ≠ [] := by rintro rfl; cases h
  have hp := (C44_block_partial chain 0 hne).2
  by_contra hl
  rw [hp.2 hl] at h; cases h

theorem step_wellFormed (K : Family T) (S O : List T → Prop) (hS : ∀ l oc c, K.checkState l oc = .ok c → c = oc ∧ S l ∧ oc < l.length)
    (hO : ∀ l u, K.checkOp l = .ok u → O l) (c : Cast T) (hr : c.isRange = false) (s s' : Store T) (h : WellFormed S O s)
    (hs : step K c s = .done s' ∨ ∃ e, step K c s = .threw e s') : WellFormed S O s' := by
  have st : ∀ (s : Store T) x l oc k, WellFormed S O s → K.checkState l oc = .ok k → WellFormed S O { s with state := put s.state x (l, some k) } := by
    intro s x l oc k h hk
    obtain ⟨rfl, a, b⟩ := hS l oc k hk
    refine ⟨fun z => ?_, h.2⟩
    by_cases hz : z = x
    · subst hz; right; simp only [put_self]; exact ⟨a, _, rfl, b⟩
    · simp only [put_other _ _ hz]; exact h.1 z
  have op : ∀ (s : Store T) y l u, WellFormed S O s → K.checkOp l = .ok u → WellFormed S O { s with op := put s.op y l } := by
    intro s y l u h hk
    refine ⟨h.1, fun z => ?_⟩
    by_cases hz : z = y
    · subst hz; right; simp only [put_self]; exact hO l u hk
    · simp only [put_other _ _ hz]; exact h.2 z
  have tr : ∀ (s : Store T) f, WellFormed S O s → WellFormed S O { s with train := f } := fun s f h => ⟨h.1, h.2⟩
  have aft : ∀ {α : Type} (r : Res α) (s1 : Store T) (k : α → Store T), WellFormed S O s1 → (∀ a, r = .ok a → WellFormed S O (k a)) →
      (after r s1 k = .done s' ∨ ∃ e, after r s1 k = .threw e s') → WellFormed S O s' := by
    intro α r s1 k h1 h2 h3
    unfold after at h3
    rcases r with (e | _) | a
    · rcases h3 with h3 | ⟨_, h3⟩
      · cases h3
      · cases h3; exact h1
    · rcases h3 with h3 | ⟨_, h3⟩ <;> cases h3
    · rcases h3 with h3 | ⟨_, h3⟩
      · cases h3; exact h2 a rfl
      · cases h3
  cases c with
  | stateOf x t oc => exact aft _ _ _ h (fun a ha => st s x _ oc a h ha) hs
  | stateMove x t oc => exact aft _ _ _ (tr s _ h) (fun a ha => st { s with train := put s.train t [] } x _ oc a (tr s _ h) ha) hs
  | opOf y t => exact aft _ _ _ h (fun a ha => op s y _ a h ha) hs
  | opMove y t => exact aft _ _ _ (tr s _ h) (fun a ha => op { s with train := put s.train t [] } y _ a (tr s _ h) ha) hs
  | trainOfState t x => rcases hs with hs | ⟨_, hs⟩ <;> cases hs; exact tr s _ h
  | trainOfOp t x => rcases hs with hs | ⟨_, hs⟩ <;> cases hs; exact tr s _ h
  | trainMoveState t x =>
    rcases hs with hs | ⟨_, hs⟩ <;> cases hs
    refine ⟨fun z => ?_, h.2⟩
    by_cases hz : z = x
    · subst hz; left; simp only [put_self]
    · simp only [put_other _ _ hz]; exact h.1 z
  | trainMoveOp t y =>
    rcases hs with hs | ⟨_, hs⟩ <;> cases hs
    refine ⟨h.1, fun z => ?_⟩
    by_cases hz : z = y
    · subst hz; left; simp only [put_self]
    · simp only [put_other _ _ hz]; exact h.2 z
  | stateRange => cases hr
  | opRange => cases hr
  | write t l => rcases hs with hs | ⟨_, hs⟩ <;> cases hs; exact tr s _ h

theorem run_wellFormed (K : Family T) (S O : List T → Prop) (hS : ∀ l oc c, K.checkState l oc = .ok c → c = oc ∧ S l ∧ oc < l.length)
    (hO : ∀ l u, K.checkOp l = .ok u → O l) : ∀ (l : List (Cast T)), (∀ c ∈ l, c.isRange = false) → ∀ s s', WellFormed S O s →
      (run K l s = .done s' ∨ ∃ e, run K l s = .threw e s') → WellFormed S O s'
  | [], _, s, s', h, hs => by
    rcases hs with hs | ⟨_, hs⟩ <;> cases hs
    exact h
  | c :: l, hl, s, s', h, hs => by
    unfold run at hs
    cases hc : step K c s with
    | done s1 =>
      rw [hc] at hs
      exact run_wellFormed K S O hS hO l (fun x hx => hl x (by simp [hx])) s1 s' (step_wellFormed K S O hS hO c (hl c (by simp)) s s1 h (.inl hc)) hs
    | threw e s1 =>
      rw [hc] at hs
      rcases hs with hs | ⟨_, hs⟩ <;> cases hs
      exact step_wellFormed K S O hS hO c (hl c (by simp)) s _ h (.inr ⟨_, hc⟩)
    | ub => rw [hc] at hs; rcases hs with hs | ⟨_, hs⟩ <;> cases hs

/-- **C128** (what the variables hold).  However a program of conversions ends, each state is empty or a linked chain of rank three tensors with its
center inside, each operator is empty or a linked chain of rank four; of block tensors, the bonds fit by their charges (C44).  Missing: chains built
from a pair of iterators (`C128_range_fails`). -/
theorem C128_chains_partial (size : T → List Nat) (l : List (Cast T)) (hl : ∀ c ∈ l, c.isRange = false) (s s' : Store T)
    (h : WellFormed (fun ts => Linked 3 (ts.map size)) (fun ts => Linked 4 (ts.map size)) s)
    (hs : run (dense size) l s = .done s' ∨ ∃ e, run (dense size) l s = .threw e s') :
    WellFormed (fun ts => Linked 3 (ts.map size)) (fun ts => Linked 4 (ts.map size)) s' :=
  run_wellFormed (dense size) _ _ (fun ts oc c hc => by simpa using mkMps_ok hc) (fun ts u hc => mkMpo_ok hc) l hl s s' h hs

/-- **C128**, for block tensors. -/
theorem C128_block_chains_partial [AddCommMonoid G] [DecidableEq G] (shape : T → Shape G) (l : List (Cast T)) (hl : ∀ c ∈ l, c.isRange = false)
    (s s' : Store T) (h : WellFormed (fun ts => ChargeLinked 3 (ts.map shape)) (fun ts => ChargeLinked 4 (ts.map shape)) s)
    (hs : run (block shape) l s = .done s' ∨ ∃ e, run (block shape) l s = .threw e s') :
    WellFormed (fun ts => ChargeLinked 3 (ts.map shape)) (fun ts => ChargeLinked 4 (ts.map shape)) s' :=
  run_wellFormed (block shape) _ _ (fun ts oc c hc => by simpa using mkBMps_ok hc) (fun ts u hc => mkBMpo_ok hc) l hl s s' h hs

/-- **C128** fails for a pair of iterators, which nothing checks: any train becomes a state, linked or not; and the center of a block state made in
this way is not initialised. -/
theorem C128_range_fails [AddCommMonoid G] [DecidableEq G] (size : T → List Nat) (shape : T → Shape G) (s : Store T) (x t : Nat) :
    (∃ s', run (dense size) [.stateRange x t 0 (s.train t).length] s = .done s' ∧ (s'.state x).1 = s.train t ∧ center s' x = .ok 0) ∧
    ∃ s', run (block shape) [.stateRange x t 0 (s.train t).length] s = .done s' ∧ (s'.state x).1 = s.train t ∧ center s' x = Res.ub := by
  constructor
  · refine ⟨{ s with state := put s.state x (s.train t, some 0) }, by simp [run, step, dense], ?_, ?_⟩ <;> simp [put_self, center]
  · refine ⟨{ s with state := put s.state x (s.train t, none) }, by simp [run, step, block], ?_, ?_⟩ <;> simp [put_self, center]

/-- **C128** (exceptions).  When a statement throws, every variable is as it was before that statement.  Missing: states and operators built from a
train that is moved (`C128_lost_fails`). -/
theorem C128_throw_partial (K : Family T) : ∀ (l : List (Cast T)) (_ : ∀ c ∈ l, c.movesIntoCheck = false) (s s' : Store T) (e : Exn),
    run K l s = .threw e s' → ∃ before c rest, l = before ++ c :: rest ∧ run K before s = .done s' ∧ step K c s' = .threw e s'
  | [], _, s, s', e, h => by cases h
  | c :: l, hl, s, s', e, h => by
    unfold run at h
    cases hc : step K c s with
    | done s1 =>
      rw [hc] at h
      obtain ⟨b, c', r, e1, e2, e3⟩ := C128_throw_partial K l (fun x hx => hl x (by simp [hx])) s1 s' e h
      refine ⟨c :: b, c', r, by rw [e1]; rfl, ?_, e3⟩
      unfold run
      rw [hc]
      exact e2
    | threw e1 s1 =>
      rw [hc] at h
      cases h
      have hm := hl c (by simp)
      have aft : ∀ {α : Type} (r : Res α) (k : α → Store T), after r s k = .threw e s' → s' = s := by
        intro α r k h
        unfold after at h
        rcases r with (e | _) | a <;> cases h
        rfl
      have : s' = s := by
        cases c with
        | stateOf x t oc => exact aft _ _ hc
        | opOf y t => exact aft _ _ hc
        | stateMove => cases hm
        | opMove => cases hm
        | stateRange x t a b => simp only [step] at hc; split at hc <;> cases hc
        | opRange y t a b => simp only [step] at hc; split at hc <;> cases hc
        | _ => cases hc
      subst this
      exact ⟨[], c, l, rfl, rfl, hc⟩
    | ub => rw [hc] at h; cases h

/-- **C128** fails for a moved train: when the check throws, the train has lost its tensors, and trying again, even without moving, is undefined
behaviour. -/
theorem C128_lost_fails (size : T → List Nat) (s : Store T) (x t oc : Nat) (hne : s.train t ≠ []) (hr : ∀ a ∈ s.train t, 3 ≤ (size a).length)
    (h : ¬ (Linked 3 ((s.train t).map size) ∧ oc < (s.train t).length)) :
    ∃ s', run (dense size) [.stateMove x t oc] s = .threw .invalidArgument s' ∧ s'.train t = [] ∧ run (dense size) [.stateOf x t oc] s' = .ub := by
  have hp := (C44_mps_partial ((s.train t).map size) oc (by simpa using hne) (by simpa using hr)).2 (by simpa using h)
  refine ⟨{ s with train := put s.train t [] }, ?_, put_self _ _ _, ?_⟩
  · simp only [run, step, dense, hp, after, Res.throw]
  · simp only [run, step, dense, put_self]
    rfl

/-- **C128**, for block tensors. -/
theorem C128_block_lost_fails [AddCommMonoid G] [DecidableEq G] (shape : T → Shape G) (s : Store T) (x t oc : Nat) (hne : s.train t ≠ [])
    (h : ¬ (ChargeLinked 3 ((s.train t).map shape) ∧ oc < (s.train t).length)) :
    ∃ s', run (block shape) [.stateMove x t oc] s = .threw .invalidArgument s' ∧ s'.train t = [] ∧ run (block shape) [.stateOf x t oc] s' = .ub := by
  have hp := (C44_block_partial ((s.train t).map shape) oc (by simpa using hne)).1.2 (by simpa using h)
  refine ⟨{ s with train := put s.train t [] }, ?_, put_self _ _ _, ?_⟩
  · simp only [run, step, block, hp, after, Res.throw]
  · simp only [run, step, block, put_self]
    rfl

/-- What a conversion back and forth does. -/
theorem back_forth (K : Family T) (s : Store T) (x z t c : Nat) (hc : (s.state x).2 = some c) (hk : K.checkState (s.state x).1 c = .ok c) :
    (∃ s', run K [.trainOfState t x, .stateOf z t c] s = .done s' ∧ s'.state z = s.state x ∧ s'.train t = (s.state x).1 ∧
      (∀ w, w ≠ z → s'.state w = s.state w) ∧ (∀ u, u ≠ t → s'.train u = s.train u) ∧ s'.op = s.op) ∧
    ∃ s', run K [.trainMoveState t x, .stateMove z t c] s = .done s' ∧ s'.state z = s.state x ∧ s'.train t = [] ∧
      (x ≠ z → (s'.state x).1 = []) ∧ (∀ w, w ≠ z → w ≠ x → s'.state w = s.state w) ∧ (∀ u, u ≠ t → s'.train u = s.train u) ∧ s'.op = s.op := by
  constructor
  · refine ⟨{ s with train := put s.train t (s.state x).1, state := put s.state z ((s.state x).1, some c) }, ?_, ?_, ?_, ?_, ?_, ?_⟩
    · simp only [run, step, put_self, hk, after]
    · simp only [put_self, ← hc]
    · simp only [put_self]
    · intro w hw; simp only [put_other _ _ hw]
    · intro u hu; simp only [put_other _ _ hu]
    · rfl
  · refine ⟨{ s with train := put (put s.train t (s.state x).1) t [], state := put (put s.state x ([], (s.state x).2)) z ((s.state x).1, some c) },
      ?_, ?_, ?_, ?_, ?_, ?_, ?_⟩
    · simp only [run, step, put_self, hk, after]
    · simp only [put_self, ← hc]
    · simp only [put_self]
    · intro hz; simp only [put_other _ _ hz, put_self]
    · intro w hw hx; simp only [put_other _ _ hw, put_other _ _ hx]
    · intro u hu; simp only [put_other _ _ hu]
    · rfl

/-- **C128** (back and forth).  A linked state turned into a train and back, with its center named, is the same state; by copies no other variable
changes, by moves the variables moved from are empty. -/
theorem C128_back (size : T → List Nat) (s : Store T) (x z t c : Nat) (hc : (s.state x).2 = some c) (hl : Linked 3 ((s.state x).1.map size))
    (hin : c < (s.state x).1.length) :
    (∃ s', run (dense size) [.trainOfState t x, .stateOf z t c] s = .done s' ∧ s'.state z = s.state x ∧ s'.train t = (s.state x).1 ∧
      (∀ w, w ≠ z → s'.state w = s.state w) ∧ (∀ u, u ≠ t → s'.train u = s.train u) ∧ s'.op = s.op) ∧
    ∃ s', run (dense size) [.trainMoveState t x, .stateMove z t c] s = .done s' ∧ s'.state z = s.state x ∧ s'.train t = [] ∧
      (x ≠ z → (s'.state x).1 = []) ∧ (∀ w, w ≠ z → w ≠ x → s'.state w = s.state w) ∧ (∀ u, u ≠ t → s'.train u = s.train u) ∧ s'.op = s.op :=
  back_forth _ s x z t c hc ((C44_mps_partial _ c (by intro h; simp at h; rw [h] at hin; simp at hin)
    (fun a ha => (hl.1 a ha).ge)).1 ⟨hl, by simpa using hin⟩)

/-- **C128**, for block tensors. -/
theorem C128_block_back [AddCommMonoid G] [DecidableEq G] (shape : T → Shape G) (s : Store T) (x z t c : Nat) (hc : (s.state x).2 = some c)
    (hl : ChargeLinked 3 ((s.state x).1.map shape)) (hin : c < (s.state x).1.length) :
    (∃ s', run (block shape) [.trainOfState t x, .stateOf z t c] s = .done s' ∧ s'.state z = s.state x ∧ s'.train t = (s.state x).1 ∧
      (∀ w, w ≠ z → s'.state w = s.state w) ∧ (∀ u, u ≠ t → s'.train u = s.train u) ∧ s'.op = s.op) ∧
    ∃ s', run (block shape) [.trainMoveState t x, .stateMove z t c] s = .done s' ∧ s'.state z = s.state x ∧ s'.train t = [] ∧
      (x ≠ z → (s'.state x).1 = []) ∧ (∀ w, w ≠ z → w ≠ x → s'.state w = s.state w) ∧ (∀ u, u ≠ t → s'.train u = s.train u) ∧ s'.op = s.op :=
  back_forth _ s x z t c hc ((C44_block_partial _ c (by intro h; simp at h; rw [h] at hin; simp at hin)).1.1 ⟨hl, by simpa using hin⟩)

/-- **C128** (operators).  An operator turned into a train and back is the same operator. -/
theorem C128_op (size : T → List Nat) (s : Store T) (y z t : Nat) (hne : s.op y ≠ []) (hl : Linked 4 ((s.op y).map size)) :
    (∃ s', run (dense size) [.trainOfOp t y, .opOf z t] s = .done s' ∧ s'.op z = s.op y ∧ s'.train t = s.op y ∧
      (∀ w, w ≠ z → s'.op w = s.op w) ∧ (∀ u, u ≠ t → s'.train u = s.train u) ∧ s'.state = s.state) ∧
    ∃ s', run (dense size) [.trainMoveOp t y, .opMove z t] s = .done s' ∧ s'.op z = s.op y ∧ s'.train t = [] ∧
      (y ≠ z → s'.op y = []) ∧ (∀ w, w ≠ z → w ≠ y → s'.op w = s.op w) ∧ (∀ u, u ≠ t → s'.train u = s.train u) ∧ s'.state = s.state := by
  have hk := (C44_mpo_partial ((s.op y).map size) (by simpa using hne) (fun a ha => by rw [hl.1 a ha]; omega)).1 hl
  constructor
  · refine ⟨{ s with train := put s.train t (s.op y), op := put s.op z (s.op y) }, ?_, ?_, ?_, ?_, ?_, ?_⟩
    · simp only [run, step, dense, put_self, hk, after]
    · simp only [put_self]
    · simp only [put_self]
    · intro w hw; simp only [put_other _ _ hw]
    · intro u hu; simp only [put_other _ _ hu]
    · rfl
  · refine ⟨{ s with train := put (put s.train t (s.op y)) t [], op := put (put s.op y []) z (s.op y) }, ?_, ?_, ?_, ?_, ?_, ?_, ?_⟩
    · simp only [run, step, dense, put_self, hk, after]
    · simp only [put_self]
    · simp only [put_self]
    · intro hz; simp only [put_other _ _ hz, put_self]
    · intro w hw hx; simp only [put_other _ _ hw, put_other _ _ hx]
    · intro u hu; simp only [put_other _ _ hu]
    · rfl

/-- All variables hold nothing, but for one train of tensors given by their sizes. -/
def one (l : List (List Nat)) : Store (List Nat) := ⟨put (fun _ => []) 0 l, fun _ => ([], some 0), fun _ => []⟩

/-- The premises are met: the empty variables, a train that becomes a state, and one that does not. -/
example : WellFormed (fun ts => Linked 3 (ts.map id)) (fun ts => Linked 4 (ts.map id)) (one [[1, 2, 3], [3, 2, 1]]) ∧
    (∃ s, run (dense id) [.stateOf 5 0 1] (one [[1, 2, 3], [3, 2, 1]]) = .done s ∧ s.state 5 = ([[1, 2, 3], [3, 2, 1]], some 1) ∧
      Linked 3 ((s.state 5).1.map id)) ∧
    ∃ s, run (dense id) [.stateMove 5 0 1] (one [[1, 2, 3], [4, 2, 1]]) = .threw .invalidArgument s ∧ s.train 0 = [] := by
  refine ⟨⟨fun x => .inl rfl, fun y => .inl rfl⟩, ?_, ?_⟩
  · refine ⟨_, rfl, rfl, ?_⟩
    exact (mkMps_ok (sizes := [[1, 2, 3], [3, 2, 1]]) (oc := 1) (oc' := 1) rfl).2.1
  · exact ⟨_, rfl, rfl⟩

end CT
end QuantiT
