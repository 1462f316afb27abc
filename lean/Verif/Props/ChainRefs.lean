import Verif.Lemmas.ChainRefs
import Verif.Props.ChainStore
/-
C125: chains hold handles on tensors.  Statements on whole chains and assignments of sites never show it; operations in place on a
site show in every site that holds the same handle.
-/
namespace QuantiT
namespace MP
open Spec
variable {R : Type}

theorem init_alive [Zero R] : Alive (refsInit : Refs R) := fun v hv => by cases hv

theorem init_sole [Zero R] : Sole (refsInit : Refs R) := ⟨fun v hv => (by cases hv), fun x y v w _ hx => by cases hx⟩

/-- `C125`: after any program, a statement that does not work in place — construction, copy, move, assignment, swap, `move_oc`, the
modifiers of `std::vector`, `x[p] = y[q]`, `to` and `to_` — has the outcome that it has when every variable is a value of its own; so it changes no
variable but those it names. -/
theorem C125_step [Semiring R] (c : R → R) (svd : Blk R → Nat → Blk R × Blk R × Blk R) (p : List (SiteCmd R)) (s : Refs R)
    (hr : refRun c svd p refsInit = .ok s) (k : SiteCmd R) (hk : k.NoEdit) :
    (refStep c svd s k).map chainsOf = ownStep c svd (chainsOf s) k :=
  (refStep_spec c svd s (refRun_alive c svd p _ s init_alive hr) k).2 (.inl hk)

/-- `C125`: a program without operations in place on a site cannot observe that copies share tensors. -/
theorem C125_values [Semiring R] (c : R → R) (svd : Blk R → Nat → Blk R × Blk R × Blk R) (p : List (SiteCmd R))
    (hp : ∀ k ∈ p, k.NoEdit) : (refRun c svd p refsInit).map chainsOf = ownRun c svd p [] :=
  refRun_spec c svd p refsInit init_alive (.inl hp)

/-- `C125`: neither can a program, with or without operations in place, that makes no second handle on a tensor; there, an
operation in place on one site changes that site only. -/
theorem C125_sole [Semiring R] (c : R → R) (svd : Blk R → Nat → Blk R × Blk R × Blk R) (p : List (SiteCmd R))
    (hp : ∀ k ∈ p, k.NoShare) : (refRun c svd p refsInit).map chainsOf = ownRun c svd p [] :=
  refRun_spec c svd p refsInit init_alive (.inr ⟨init_sole, hp⟩)

theorem value_of_at {s : Refs R} {x p a : Nat} (h : s.at x p a) : s.value x p = some (s.heap a) := by
  obtain ⟨v, h1, h2⟩ := h
  simp [Refs.value, h1, h2]

theorem at_of_value {s : Refs R} {x p : Nat} {t : Blk R} (h : s.value x p = some t) : ∃ a, s.at x p a ∧ s.heap a = t := by
  unfold Refs.value at h
  cases hx : s.vars[x]? with
  | none => rw [hx] at h; cases h
  | some v =>
    rw [hx] at h
    simp only [Option.bind_some] at h
    cases hp : v.1[p]? with
    | none => rw [hp] at h; cases h
    | some a =>
      rw [hp] at h
      exact ⟨a, ⟨v, hx, hp⟩, Option.some.inj h⟩

theorem at_unique {s : Refs R} {x p a b : Nat} (h : s.at x p a) (h' : s.at x p b) : a = b := by
  obtain ⟨v, h1, h2⟩ := h
  obtain ⟨w, h3, h4⟩ := h'
  rw [h1] at h3
  cases h3
  rw [h2] at h4
  exact Option.some.inj h4

/-- An operation in place on an existing site: it succeeds, changes no handle, and changes exactly the sites with that handle. -/
theorem edit_spec [Semiring R] (c : R → R) (svd : Blk R → Nat → Blk R × Blk R × Blk R) (s : Refs R) (x p : Nat)
    (g : Blk R → List Nat → R) (t : Blk R) (ht : s.value x p = some t) :
    ∃ s', refStep c svd s (.edit x p g) = .ok s' ∧
      (∀ y q, s.Shared x p y q → s'.value y q = some ⟨t.dims, g t⟩) ∧
      ∀ y q, ¬ s.Shared x p y q → s'.value y q = s.value y q := by
  obtain ⟨a, ha, rfl⟩ := at_of_value ht
  have ha' := ha
  obtain ⟨v, hx, hp⟩ := ha
  refine ⟨_, refEdit_eq c svd s x p g hx hp, fun y q hs => ?_, fun y q hs => ?_⟩
  · obtain ⟨b, h1, h2⟩ := hs
    obtain rfl := at_unique ha' h1
    have h3 : (⟨s.vars, editHeap s a g, s.next⟩ : Refs R).at y q a := h2
    rw [value_of_at h3]
    simp [editHeap, setCell]
  · unfold Refs.value
    cases hy : s.vars[y]? with
    | none => rfl
    | some w =>
      cases hq : w.1[q]? with
      | none => simp [hq]
      | some b =>
        have hba : b ≠ a := by
          rintro rfl
          exact hs ⟨b, ha', w, hy, hq⟩
        simp [hq, editHeap, setCell, hba]

/-- `C125`: in any state, an operation in place on a site changes exactly the sites that are handles on the same tensor, of
this variable and of the others, and they all get the new value. -/
theorem C125_edit_partial [Semiring R] (c : R → R) (svd : Blk R → Nat → Blk R × Blk R × Blk R) (s : Refs R)
    (x p : Nat) (g : Blk R → List Nat → R) (t : Blk R) (ht : s.value x p = some t) :
    ∃ s', refStep c svd s (.edit x p g) = .ok s' ∧ s'.value x p = some ⟨t.dims, g t⟩ ∧
      (∀ y q, s.Shared x p y q → s'.value y q = some ⟨t.dims, g t⟩) ∧
      ∀ y q, ¬ s.Shared x p y q → s'.value y q = s.value y q := by
  obtain ⟨s', h1, h2, h3⟩ := edit_spec c svd s x p g t ht
  obtain ⟨a, ha, -⟩ := at_of_value ht
  exact ⟨s', h1, h2 x p ⟨a, ha, ha⟩, h2, h3⟩

/-- `C125` fails for copies: in any state, an operation in place on a site of a fresh copy of a chain changes the original. -/
theorem C125_copy_fails [Semiring R] (c : R → R) (svd : Blk R → Nat → Blk R × Blk R × Blk R) (s : Refs R)
    (y p : Nat) (g : Blk R → List Nat → R) (t : Blk R) (ht : s.value y p = some t) :
    ∃ s', refRun c svd [.chain (.copy y), .edit s.vars.length p g] s = .ok s' ∧ s'.value y p = some ⟨t.dims, g t⟩ := by
  obtain ⟨a, ⟨v, hy, hp⟩, rfl⟩ := at_of_value ht
  have hc : refStep c svd s (.chain (.copy y)) = .ok ⟨s.vars ++ [v], s.heap, s.next⟩ := by
    simp [refStep, refChain, hy, BT.orUb, bind, Except.bind]
  have hlt := (List.getElem?_eq_some_iff.1 hy).1
  have h1 : (⟨s.vars ++ [v], s.heap, s.next⟩ : Refs R).at s.vars.length p a := ⟨v, by simp, hp⟩
  have h2 : (⟨s.vars ++ [v], s.heap, s.next⟩ : Refs R).at y p a :=
    ⟨v, by rw [List.getElem?_append_left hlt]; exact hy, hp⟩
  obtain ⟨s', h3, h4, -⟩ := edit_spec c svd _ _ p g _ (value_of_at h1)
  refine ⟨s', ?_, h4 y p ⟨a, h1, h2⟩⟩
  simp only [refRun, hc, h3, bind, Except.bind]

/-- `C125` fails for conversions: after any program, an operation in place on a site of a converted chain changes the original where
the tensor was as wanted already. -/
theorem C125_to_fails [Semiring R] (c : R → R) (svd : Blk R → Nat → Blk R × Blk R × Blk R) (prog : List (SiteCmd R)) (s : Refs R)
    (hr : refRun c svd prog refsInit = .ok s) (y p : Nat) (fits : Blk R → Bool) (conv : Blk R → Blk R) (g : Blk R → List Nat → R)
    (t : Blk R) (ht : s.value y p = some t) (hf : fits t = true) :
    ∃ s', refRun c svd [.toNew y fits conv, .edit s.vars.length p g] s = .ok s' ∧ s'.value y p = some ⟨t.dims, g t⟩ := by
  have hal := refRun_alive c svd prog _ s init_alive hr
  obtain ⟨a, ⟨v, hy, hp⟩, rfl⟩ := at_of_value ht
  have hv := hal v (List.mem_of_getElem? hy)
  have hlt := (List.getElem?_eq_some_iff.1 hy).1
  obtain ⟨-, h0, -⟩ := convCells_spec fits conv v.1 s.heap s.next v.2 hv
  have hk := convCells_keep fits conv v.1 s.heap s.next p a hv hp hf
  have hold : (convCells fits conv v.1 s.heap s.next).2.1 a = s.heap a := h0.old a (hv a (List.mem_of_getElem? hp))
  generalize hs1 : (⟨s.vars ++ [((convCells fits conv v.1 s.heap s.next).1, v.2)], (convCells fits conv v.1 s.heap s.next).2.1,
      (convCells fits conv v.1 s.heap s.next).2.2⟩ : Refs R) = s1
  have hc : refStep c svd s (.toNew y fits conv) = .ok s1 := by
    rw [← hs1]
    simp [refStep, hy, BT.orUb, bind, Except.bind]
  have h1 : s1.at s.vars.length p a := by
    rw [← hs1]
    exact ⟨((convCells fits conv v.1 s.heap s.next).1, v.2), by simp, hk⟩
  have h2 : s1.at y p a := by
    rw [← hs1]
    exact ⟨v, by simp only; rw [List.getElem?_append_left hlt]; exact hy, hp⟩
  have hh : s1.heap a = s.heap a := by rw [← hs1]; exact hold
  obtain ⟨s', h3, h4, -⟩ := edit_spec c svd s1 _ p g _ (value_of_at h1)
  refine ⟨s', by simp only [refRun, hc, h3, bind, Except.bind], ?_⟩
  rw [h4 y p ⟨a, h1, h2⟩, hh]

/-- `C125` fails for chains made of one tensor: in any state, an operation in place on one site of a new chain
`MPS x(n, tensor, oc)` changes all sites of it. -/
theorem C125_fill_fails [Semiring R] (c : R → R) (svd : Blk R → Nat → Blk R × Blk R × Blk R) (s : Refs R)
    (n : Nat) (t : Blk R) (oc : Nat) (hok : mkMpsFill n t.dims oc = .ok oc) (p : Nat)
    (hp : p < n) (g : Blk R → List Nat → R) :
    ∃ s', refRun c svd [.chain (.fill n t oc), .edit s.vars.length p g] s = .ok s' ∧
      ∀ q, q < n → s'.value s.vars.length q = some ⟨t.dims, g t⟩ := by
  have hc : refStep c svd s (.chain (.fill n t oc)) =
      .ok ⟨s.vars ++ [(List.replicate n s.next, oc)], setCell s.heap s.next t, s.next + 1⟩ := by
    simp [refStep, refChain, hok, bind, Except.bind]
  have h1 : ∀ q, q < n → (⟨s.vars ++ [(List.replicate n s.next, oc)], setCell s.heap s.next t, s.next + 1⟩ : Refs R).at
      s.vars.length q s.next := fun q hq => ⟨(List.replicate n s.next, oc), by simp, by simp [hq]⟩
  obtain ⟨s', h3, h4, -⟩ := edit_spec c svd _ _ p g _ (value_of_at (h1 p hp))
  refine ⟨s', by simp only [refRun, hc, h3, bind, Except.bind], fun q hq => ?_⟩
  have h5 := h4 _ q ⟨_, h1 p hp, h1 q hq⟩
  simpa [setCell] using h5

/-- A chain of two sites over the integers, copied; the center of the copy is moved, and a site of it is multiplied in place: the
original keeps its tensors. -/
example : ∃ s, refRun star idSvd [.chain (.build [⟨[1, 2, 2], fun o => (o.sum : ℤ)⟩, ⟨[2, 2, 1], fun _ => 3⟩] 1), .chain (.copy 0),
      .chain (.moveOc 1 0), .edit 1 0 (fun t o => 2 * t.f o)] refsInit = .ok s ∧
    s.vars = [([0, 1], 1), ([3, 2], 0)] := ⟨_, rfl, rfl⟩

/-- The same without moving the center: the first site of the original is multiplied too. -/
example : ∃ s, refRun star idSvd [.chain (.build [⟨[1, 2, 2], fun o => (o.sum : ℤ)⟩, ⟨[2, 2, 1], fun _ => 3⟩] 1), .chain (.copy 0)]
      refsInit = .ok s ∧ s.value 0 0 = some ⟨[1, 2, 2], fun o => (o.sum : ℤ)⟩ ∧
    ∃ s', refRun star idSvd [.edit 1 0 (fun t o => 2 * t.f o)] s = .ok s' ∧
      s'.value 0 0 = some ⟨[1, 2, 2], fun o => 2 * (o.sum : ℤ)⟩ := ⟨_, rfl, rfl, _, rfl, rfl⟩

/-- A program without second handles, with operations in place. -/
example : (refRun star idSvd [.chain (.build [⟨[1, 2, 2], fun o => (o.sum : ℤ)⟩, ⟨[2, 2, 1], fun _ => 3⟩] 1), .chain (.take 0),
      .edit 1 0 (fun t o => 2 * t.f o)] refsInit).map chainsOf =
    .ok [⟨[], 1⟩, ⟨[⟨[1, 2, 2], fun o => 2 * (o.sum : ℤ)⟩, ⟨[2, 2, 1], fun _ => 3⟩], 1⟩] := by
  rw [C125_sole star idSvd _ (by simp [SiteCmd.NoShare])]
  rfl

/-- A conversion that has only the second tensor to convert: the first site shares its tensor with the original. -/
example : ∃ s, refRun star idSvd [.chain (.build [⟨[1, 2, 2], fun o => (o.sum : ℤ)⟩, ⟨[2, 2, 1], fun _ => 3⟩] 1),
      .toNew 0 (fun t => t.dims == [1, 2, 2]) id] refsInit = .ok s ∧ s.vars = [([0, 1], 1), ([0, 2], 1)] := ⟨_, rfl, rfl⟩

/-- Chains of one tensor are accepted. -/
example : mkMpsFill 3 [2, 2, 2] 1 = .ok 1 := rfl

end MP
end QuantiT
