import Verif.Lemmas.Sums
import Verif.Model.PyChains
/-
C131: methods in place and chains of them, in Python.
-/
namespace QuantiT
namespace PY
open Spec BT
variable {G R : Type} [AddCommGroup G] [DecidableEq G]

theorem callMethod_copy {s : Session G R} {i : Nat} {f : InPlace G R} (hf : ¬ f.IsT) {r : Session G R × Nat} (h : callMethod s i f = .ok r) :
    ∃ x x' mem, s.objs[i]? = some x ∧ runMethod f s.mem x = .ok (mem, x') ∧ r = (⟨mem, s.objs.set i x' ++ [x']⟩, s.objs.length) := by
  unfold callMethod at h
  cases hx : s.objs[i]? with
  | none => rw [hx] at h; cases h
  | some x =>
    rw [hx] at h
    simp only at h
    cases hr : runMethod f s.mem x with
    | error e => rw [hr] at h; cases h
    | ok y =>
      rw [hr] at h
      obtain ⟨mem, x'⟩ := y
      refine ⟨x, x', mem, rfl, hr, ?_⟩
      cases f with
      | t => exact absurd trivial hf
      | _ => exact (Except.ok.inj h).symm

theorem callMethod_t {s : Session G R} {i : Nat} {f : InPlace G R} (hf : f.IsT) {r : Session G R × Nat} (h : callMethod s i f = .ok r) :
    ∃ x' mem, r = (⟨mem, s.objs.set i x'⟩, i) := by
  unfold callMethod at h
  cases hx : s.objs[i]? with
  | none => rw [hx] at h; cases h
  | some x =>
    rw [hx] at h
    simp only at h
    cases hr : runMethod f s.mem x with
    | error e => rw [hr] at h; cases h
    | ok y =>
      rw [hr] at h
      obtain ⟨mem, x'⟩ := y
      cases f with
      | t => exact ⟨x', mem, (Except.ok.inj h).symm⟩
      | _ => exact absurd hf id

/-- A chain on another object does not touch the sections, the rule and the places of the elements. -/
theorem chain_other (fs : List (InPlace G R)) (s : Session G R) (i j : Nat) (hij : i ≠ j) (hi : i < s.objs.length) (r : Session G R × Nat)
    (h : chain fs s j = .ok r) : r.1.objs[i]? = s.objs[i]? := by
  induction fs generalizing s j with
  | nil =>
    cases h
    rfl
  | cons f fs ih =>
    simp only [chain, bind, Except.bind] at h
    cases hc : callMethod s j f with
    | error e => rw [hc] at h; cases h
    | ok r' =>
      rw [hc] at h
      by_cases hf : f.IsT
      · obtain ⟨x', mem, rfl⟩ := callMethod_t hf hc
        rw [ih _ _ hij (by simpa using hi) h]
        simp [List.getElem?_set_ne hij.symm]
      · obtain ⟨x, x', mem, -, -, rfl⟩ := callMethod_copy hf hc
        rw [ih _ _ (by simp only; omega) (by simp only [List.length_append, List.length_set]; omega) h]
        simp only
        rw [List.getElem?_append_left (by simpa using hi), List.getElem?_set_ne hij.symm]

theorem callMethod_each (s : Session G R) (i : Nat) (g : R → R) (x : BT G Nat) (hx : s.objs[i]? = some x) :
    callMethod s i (.each g) = .ok (⟨fun p => if p ∈ places x then g (s.mem p) else s.mem p, s.objs ++ [x]⟩, s.objs.length) := by
  have hi := (List.getElem?_eq_some_iff.1 hx)
  obtain ⟨hi, e⟩ := hi
  simp only [callMethod, hx, runMethod]
  congr
  rw [← e]
  exact List.set_getElem_self hi

/-- Methods that act on every element, called through a copy or on the tensor itself. -/
theorem chain_each (gs : List (InPlace G R)) (hg : ∀ g ∈ gs, g.IsEach) (s s' : Session G R) (i j : Nat) (x : BT G Nat) (hm : s.mem = s'.mem)
    (hi : s.objs[i]? = some x) (hj : s.objs[j]? = some x) (hi' : s'.objs[i]? = some x) :
    ∃ r r', chain gs s j = .ok r ∧ statements gs s' i = .ok r' ∧ r.1.mem = r'.mem ∧ r.1.objs[i]? = some x ∧ r'.objs[i]? = some x := by
  induction gs generalizing s s' j with
  | nil => exact ⟨_, _, rfl, rfl, hm, hi, hi'⟩
  | cons g gs ih =>
    cases g with
    | each g =>
      obtain ⟨r, r', h1, h2, h3⟩ := ih (fun y hy => hg y (by simp [hy]))
        ⟨fun p => if p ∈ places x then g (s.mem p) else s.mem p, s.objs ++ [x]⟩
        ⟨fun p => if p ∈ places x then g (s'.mem p) else s'.mem p, s'.objs ++ [x]⟩ s.objs.length (by rw [hm])
        (by rw [List.getElem?_append_left (List.getElem?_eq_some_iff.1 hi).1]; exact hi) (by simp)
        (by rw [List.getElem?_append_left (List.getElem?_eq_some_iff.1 hi').1]; exact hi')
      refine ⟨r, r', ?_, ?_, h3⟩
      · simp only [chain, callMethod_each s j g x hj, bind, Except.bind]
        exact h1
      · simp only [statements, callMethod_each s' i g x hi', bind, Except.bind]
        exact h2
    | permute p => exact absurd (hg _ List.mem_cons_self) id
    | transpose a b => exact absurd (hg _ List.mem_cons_self) id
    | shift q d => exact absurd (hg _ List.mem_cons_self) id
    | t => exact absurd (hg _ List.mem_cons_self) id

/-- **C131** (partial: `t_` any number of times, then any method, then only methods that change every element).  The chain leaves the tensor, and the values
of its elements, as the same calls in separate statements do, and fails if they do. -/
theorem C131_chain_partial (ts gs : List (InPlace G R)) (f : InPlace G R) (ht : ∀ g ∈ ts, g.IsT) (hg : ∀ g ∈ gs, g.IsEach) (s : Session G R) (i : Nat)
    (hi : i < s.objs.length) :
    (chain (ts ++ f :: gs) s i).map (fun r => (r.1.mem, r.1.objs[i]?)) =
      (statements (ts ++ f :: gs) s i).map (fun r => (r.mem, r.objs[i]?)) := by
  induction ts generalizing s with
  | nil =>
    simp only [List.nil_append, chain, statements, bind, Except.bind]
    cases hc : callMethod s i f with
    | error e => rfl
    | ok r =>
      simp only
      by_cases hf : f.IsT
      · obtain ⟨x', mem, rfl⟩ := callMethod_t hf hc
        have e : (s.objs.set i x')[i]? = some x' := by simp [hi]
        obtain ⟨r, r', h1, h2, h3, h4, h5⟩ := chain_each gs hg ⟨mem, s.objs.set i x'⟩ ⟨mem, s.objs.set i x'⟩ i i x' rfl e e e
        simp only [h1, h2, Except.map, h3, h4, h5]
      · obtain ⟨x, x', mem, -, -, rfl⟩ := callMethod_copy hf hc
        have e : (s.objs.set i x' ++ [x'])[i]? = some x' := by
          rw [List.getElem?_append_left (by simpa using hi)]
          simp [hi]
        have e' : (s.objs.set i x' ++ [x'])[s.objs.length]? = some x' := by simp
        obtain ⟨r, r', h1, h2, h3, h4, h5⟩ := chain_each gs hg ⟨mem, s.objs.set i x' ++ [x']⟩ ⟨mem, s.objs.set i x' ++ [x']⟩ i s.objs.length x' rfl e e' e
        simp only [h1, h2, Except.map, h3, h4, h5]
  | cons f' ts ih =>
    simp only [List.cons_append, chain, statements, bind, Except.bind]
    cases hc : callMethod s i f' with
    | error e => rfl
    | ok r =>
      obtain ⟨x', mem, rfl⟩ := callMethod_t (ht f' (by simp)) hc
      exact ih (fun y hy => ht y (by simp [hy])) _ (by simpa using hi)

/-- **C131.**  What a method that changes every element does: the value of every element of the tensor changes accordingly, no other place of the
memory changes, and no tensor changes its sections, its rule or the places of its elements. -/
theorem C131_each (s : Session G R) (i : Nat) (g : R → R) (x : BT G Nat) (hx : s.objs[i]? = some x) :
    ∃ s' : Session G R, statements [.each g] s i = .ok s' ∧ (∀ (j : Nat) (y : BT G Nat), s.objs[j]? = some y → s'.objs[j]? = some y) ∧
      (∀ k b, (k, b) ∈ x.blocks → ∀ o, InRange o b.dims → s'.mem (b.f o) = g (s.mem (b.f o))) ∧
      (∀ p, (∀ k b, (k, b) ∈ x.blocks → ∀ o, InRange o b.dims → b.f o ≠ p) → s'.mem p = s.mem p) := by
  simp only [statements, callMethod_each s i g x hx, bind, Except.bind]
  refine ⟨_, rfl, fun j y hj => ?_, fun k b hb o ho => ?_, fun p hp => ?_⟩
  · simp only
    rw [List.getElem?_append_left (List.getElem?_eq_some_iff.1 hj).1]
    exact hj
  · simp only
    rw [if_pos]
    exact List.mem_flatMap.2 ⟨_, hb, List.mem_map.2 ⟨o, mem_allIdx.2 ho, rfl⟩⟩
  · simp only
    rw [if_neg]
    intro h
    obtain ⟨⟨k, b⟩, hb, h⟩ := List.mem_flatMap.1 h
    obtain ⟨o, ho, e⟩ := List.mem_map.1 h
    exact hp k b hb o (mem_allIdx.1 ho) e

/-- **C131 fails**: after any method but `t_`, the methods that follow in a chain, whatever they are, do not change the sections, the rule or the places of
the elements of the tensor. -/
theorem C131_lost_fails (f : InPlace G R) (fs : List (InPlace G R)) (hf : ¬ f.IsT) (s s' : Session G R) (i : Nat) (hi : i < s.objs.length)
    (r : Session G R × Nat) (h : chain (f :: fs) s i = .ok r) (h' : statements [f] s i = .ok s') : r.1.objs[i]? = s'.objs[i]? := by
  simp only [chain, statements, bind, Except.bind] at h h'
  cases hc : callMethod s i f with
  | error e => rw [hc] at h; cases h
  | ok y =>
    rw [hc] at h h'
    obtain ⟨x, x', mem, -, -, rfl⟩ := callMethod_copy hf hc
    cases h'
    exact chain_other fs _ i _ (by simp only; omega) (by simp only [List.length_append, List.length_set]; omega) r h

/-- **C131 fails**, for example, for every shift of the charges after a method that changes every element, for every tensor, unless the shift is zero:
the rule of the tensor is not what the same calls in separate statements make it. -/
theorem C131_shift_fails (s : Session G R) (i : Nat) (x : BT G Nat) (hx : s.objs[i]? = some x) (g : R → R) (q : G) (hq : q ≠ 0) (dim : Nat)
    (hd : dim < x.shape.length) :
    ∃ r s' y y', chain [.each g, .shift q dim] s i = .ok r ∧ statements [.each g, .shift q dim] s i = .ok s' ∧
      r.1.objs[i]? = some y ∧ s'.objs[i]? = some y' ∧ y = x ∧ y'.rule = x.rule - q ∧ y.rule ≠ y'.rule := by
  have hi := (List.getElem?_eq_some_iff.1 hx).1
  have hs : cvalShift x q dim = .ok { x with shape := x.shape.set dim ((x.shape[dim]).map fun s => (s.1, s.2 + q)), rule := x.rule + -q } := by
    simp only [cvalShift, shiftImpl, List.getElem?_eq_getElem hd]
    rfl
  refine ⟨(⟨fun p => if p ∈ places x then g (s.mem p) else s.mem p,
      (s.objs ++ [x]).set s.objs.length { x with shape := x.shape.set dim ((x.shape[dim]).map fun s => (s.1, s.2 + q)), rule := x.rule + -q } ++
        [{ x with shape := x.shape.set dim ((x.shape[dim]).map fun s => (s.1, s.2 + q)), rule := x.rule + -q }]⟩, (s.objs ++ [x]).length),
    ⟨fun p => if p ∈ places x then g (s.mem p) else s.mem p,
      (s.objs ++ [x]).set i { x with shape := x.shape.set dim ((x.shape[dim]).map fun s => (s.1, s.2 + q)), rule := x.rule + -q } ++
        [{ x with shape := x.shape.set dim ((x.shape[dim]).map fun s => (s.1, s.2 + q)), rule := x.rule + -q }]⟩, x, { x with shape := x.shape.set dim ((x.shape[dim]).map fun s => (s.1, s.2 + q)), rule := x.rule + -q }, ?_, ?_, ?_, ?_, rfl,
    by simp [sub_eq_add_neg], by simpa using hq⟩
  · simp only [chain, callMethod_each s i g x hx, bind, Except.bind]
    simp only [callMethod, List.getElem?_concat_length, runMethod, hs, Except.map]
  · simp only [statements, callMethod_each s i g x hx, bind, Except.bind]
    simp only [callMethod, List.getElem?_append_left hi, hx, runMethod, hs, Except.map]
  · simp only
    rw [List.getElem?_append_left (by simp; omega), List.getElem?_set_ne (by omega), List.getElem?_append_left hi]
    exact hx
  · simp only
    rw [List.getElem?_append_left (by simp; omega), List.getElem?_set_self (by simp; omega)]

/-- A matrix with one block: `t.mul_(2).cval_shift_(1, 0)` leaves its sections and its rule as `t.mul_(2)` does. -/
example : ∃ (s : Session ℤ ℤ) (r : Session ℤ ℤ × Nat) (s' : Session ℤ ℤ), chain [.each (2 * ·), .shift 1 0] s 0 = .ok r ∧
    statements [.each (2 * ·)] s 0 = .ok s' ∧ r.1.objs[0]? = s'.objs[0]? := by
  obtain ⟨r, _, _, _, h, _⟩ := C131_shift_fails (⟨fun p => p, [⟨[[(1, 0)], [(2, 0)]], 0, [([0, 0], ⟨[1, 2], fun o => o.getD 1 0⟩)]⟩]⟩ : Session ℤ ℤ) 0 _ rfl
    (2 * ·) 1 (by decide) 0 (by decide)
  exact ⟨_, r, _, h, rfl, C131_lost_fails _ _ id _ _ 0 (by decide) r h rfl⟩

end PY
end QuantiT
