import Verif.Lemmas.Network3
/-
Contractions of dense chains (C69, C70).
-/
namespace QuantiT
namespace MP
open Finset Spec
variable {R : Type}

section
variable [CommSemiring R] [StarRing R]

/-- **C69.** `contract(a, b, obs, left, right)` is `⟨b| obs |a⟩`, the sum over all configurations, closed by the two
edges. -/
theorem C69_operator (a Ws b : List (Blk R)) (L Rt : Blk R) (h : Fit a Ws b) (ha : a ≠ [])
    (hL : L.dims = [leftEnd a, leftEnd Ws, leftEnd b]) (hR : Rt.dims = [rightEnd a, rightEnd Ws, rightEnd b]) :
    ∃ x, contractOp star a b Ws L Rt = .ok x ∧ x.dims = [] ∧
      x.f [] = ∑ l ∈ range (leftEnd a), ∑ w ∈ range (leftEnd Ws), ∑ l' ∈ range (leftEnd b),
        ∑ r ∈ range (rightEnd a), ∑ w' ∈ range (rightEnd Ws), ∑ r' ∈ range (rightEnd b),
          L.f [l, w, l'] * sandwich a Ws b l w l' r w' r' * Rt.f [r, w', r'] := by
  obtain ⟨L', h1, h2, h3⟩ := contractLoop_ok (Fit.to h ha) L hL
  obtain ⟨x, h4, h5, h6⟩ := tdot3_ok h2 hR
  refine ⟨x, ?_, h5, ?_⟩
  · simp only [contractOp, bind, Except.bind, h1, h4]
  · rw [h6, sum_congr rfl fun Z hZ => by rw [h3 Z hZ]]
    simp only [sum_mul]
    rw [sum_comm, sum_cuts]
    refine sum_congr rfl fun l _ => sum_congr rfl fun w _ => sum_congr rfl fun l' _ => ?_
    rw [sum_cuts]
    rfl

/-- **C69.** `contract(a, b, left, right)` is `⟨b|a⟩`, the sum over all configurations, closed by the two edges. -/
theorem C69_overlap (a b : List (Blk R)) (L Rt : Blk R) (hka : Linked 3 (a.map Blk.dims)) (hkb : Linked 3 (b.map Blk.dims))
    (hp : phys a = phys b) (ha : a ≠ [])
    (hL : L.dims = [leftEnd a, leftEnd b]) (hR : Rt.dims = [rightEnd a, rightEnd b]) :
    ∃ x, contractNorm star a b L Rt = .ok x ∧ x.dims = [] ∧
      x.f [] = ∑ l ∈ range (leftEnd a), ∑ l' ∈ range (leftEnd b), ∑ r ∈ range (rightEnd a), ∑ r' ∈ range (rightEnd b),
          L.f [l, l'] * overlap a b l l' r r' * Rt.f [r, r'] := by
  obtain ⟨L', h1, h2, h3⟩ := normLoop_ok (fitTo2 hka hkb hp ha) L hL
  obtain ⟨x, h4, h5, h6⟩ := tdot2_ok h2 hR
  refine ⟨x, ?_, h5, ?_⟩
  · simp only [contractNorm, bind, Except.bind, h1, h4]
  · rw [h6, sum_congr rfl fun r hr => sum_congr rfl fun r' hr' => by rw [h3 r r' (mem_range.1 hr) (mem_range.1 hr')]]
    simp only [sum_mul, sum_sigma']
    refine sum_nbij' (fun ⟨r, r', l, l'⟩ => ⟨l, l', r, r'⟩) (fun ⟨l, l', r, r'⟩ => ⟨r, r', l, l'⟩) ?_ ?_ ?_ ?_ ?_
    · rintro ⟨k, k', l, l'⟩ hq
      simp only [mem_sigma, mem_range] at hq ⊢
      tauto
    · rintro ⟨l, l', k, k'⟩ hq
      simp only [mem_sigma, mem_range] at hq ⊢
      tauto
    · rintro ⟨k, k', l, l'⟩ _; rfl
    · rintro ⟨l, l', k, k'⟩ _; rfl
    · rintro ⟨k, k', l, l'⟩ _; rfl

/-- **C69, trivial ends.** For a state with bonds of size one at its ends and edges filled with ones, `contract(a, a, left,
right)` is `∑ |a(σ)|²` and `contract(a, b, obs, left, right)` is `∑ a(σ) · obs(τ, σ) · conj b(τ)`. -/
theorem C69_trivial_ends (a Ws b : List (Blk R)) (L Rt L2 R2 : Blk R) (h : Fit a Ws b) (ha : a ≠ []) (hp : phys a = phys b)
    (he : leftEnd a = 1 ∧ leftEnd Ws = 1 ∧ leftEnd b = 1 ∧ rightEnd a = 1 ∧ rightEnd Ws = 1 ∧ rightEnd b = 1)
    (hL : L.dims = [1, 1, 1] ∧ L.f [0, 0, 0] = 1) (hR : Rt.dims = [1, 1, 1] ∧ Rt.f [0, 0, 0] = 1)
    (hL2 : L2.dims = [1, 1] ∧ L2.f [0, 0] = 1) (hR2 : R2.dims = [1, 1] ∧ R2.f [0, 0] = 1) :
    (∃ x, contractOp star a b Ws L Rt = .ok x ∧
      x.f [] = ∑ σ ∈ configs (phys a), ∑ τ ∈ configs (phys b), amp a σ 0 0 * opEntry Ws τ σ 0 0 * star (amp b τ 0 0)) ∧
    ∃ x, contractNorm star a b L2 R2 = .ok x ∧
      x.f [] = ∑ σ ∈ configs (phys a), amp a σ 0 0 * star (amp b σ 0 0) := by
  obtain ⟨e1, e2, e3, e4, e5, e6⟩ := he
  constructor
  · obtain ⟨x, h1, _, h3⟩ := C69_operator a Ws b L Rt h ha (by rw [hL.1, e1, e2, e3]) (by rw [hR.1, e4, e5, e6])
    refine ⟨x, h1, ?_⟩
    rw [h3, e1, e2, e3, e4, e5, e6]
    simp only [range_one, sum_singleton, hL.2, hR.2, one_mul, mul_one]
    rfl
  · obtain ⟨x, h1, _, h3⟩ := C69_overlap a b L2 R2 h.ket h.bra hp ha (by rw [hL2.1, e1, e3]) (by rw [hR2.1, e4, e6])
    refine ⟨x, h1, ?_⟩
    rw [h3, e1, e3, e4, e6]
    simp only [range_one, sum_singleton, hL2.2, hR2.2, one_mul, mul_one]
    rfl

end

/-! ### Default edges -/

theorem selectLoop_eq : ∀ (inds : List Int) (shape : List Nat) (done todo : List Nat), shape.length = inds.length →
    todo.length = inds.count (-1) → inds ≠ [] →
    selectLoop inds shape done.length (done ++ todo)
      = if inds.getLast? = some (-1) then .ok (done ++ selected shape inds) else Res.ub
  | [], _, _, _, _, _, h => absurd rfl h
  | [i], [n], done, todo, _, ht, _ => by
    by_cases hi : i = -1
    · subst hi
      match todo, ht with
      | [x], _ => simp [selectLoop, selected]
    · have : todo = [] := List.length_eq_zero_iff.1 (by rw [ht]; simp [hi])
      subst this
      simp [selectLoop, hi]
  | i :: j :: is, n :: m :: ns, done, todo, hl, ht, _ => by
    rw [selectLoop]
    by_cases hi : i = -1
    · subst hi
      obtain ⟨x, todo, rfl⟩ : ∃ x t, todo = x :: t := by
        cases todo with
        | nil => simp at ht
        | cons x t => exact ⟨x, t, rfl⟩
      · have ht' : todo.length = (j :: is).count (-1) := by simpa using ht
        have ih := selectLoop_eq (j :: is) (m :: ns) (done ++ [n]) todo (by simpa using hl) ht' (by simp)
        rw [if_pos (by simp), if_pos rfl]
        have e : (done ++ x :: todo).set done.length n = done ++ [n] ++ todo := by simp
        rw [e, show done.length + 1 = (done ++ [n]).length by simp, ih]
        simp [selected]
    · have ht' : todo.length = (j :: is).count (-1) := by rw [ht, List.count_cons]; simp [hi]
      match todo, ht' with
      | [], ht' =>
        rw [if_neg (by simp), if_neg]
        intro h
        have := List.mem_of_getLast? h
        rw [List.mem_cons] at this
        rcases this with h' | h'
        · exact hi h'.symm
        · have := List.count_pos_iff.2 h'
          simp only [List.length_nil] at ht'
          omega
      | x :: todo, ht' =>
        have ih := selectLoop_eq (j :: is) (m :: ns) done (n :: todo) (by simpa using hl) ht' (by simp)
        rw [if_pos (by simp), if_neg hi]
        have e : (done ++ x :: todo).set done.length n = done ++ n :: todo := by simp
        rw [e, ih]
        simp [selected, hi]

theorem selected_none : ∀ (shape : List Nat) (inds : List Int), inds.count (-1) = 0 → selected shape inds = []
  | [], _, _ => by simp [selected]
  | _ :: _, [], _ => by simp [selected]
  | n :: ns, i :: is, h => by
    have hi : i ≠ -1 := by rintro rfl; simp at h
    rw [List.count_cons_of_ne (by simpa using hi)] at h
    simp only [selected, if_neg hi]
    exact selected_none ns is h

/-- **C70, partial.** `shape_from(tensor, inds)` of a dense tensor gives the sizes of the dimensions marked with `-1` when
the last dimension is marked, or none is.  In every other case it writes past the end of the list it builds.
Missing for the full property: the other cases. -/
theorem C70_select_partial (shape : List Nat) (inds : List Int) (h : shape.length = inds.length) :
    ((inds.count (-1) = 0 ∨ inds.getLast? = some (-1)) → selectShape shape inds = .ok (selected shape inds)) ∧
    (inds.count (-1) ≠ 0 → inds.getLast? ≠ some (-1) → selectShape shape inds = Res.ub) := by
  unfold selectShape
  constructor
  · intro h1
    by_cases h0 : inds.count (-1) = 0
    · simp only [h0, if_true]
      rw [selected_none _ _ h0]
    · have hn : inds ≠ [] := by rintro rfl; simp at h0
      have := selectLoop_eq inds shape [] (List.replicate (inds.count (-1)) 0) h (by simp) hn
      simp only [List.length_nil, List.nil_append, if_pos (h1.resolve_left h0)] at this
      simp only [h0, if_false, this]
  · intro h0 h1
    have hn : inds ≠ [] := by rintro rfl; simp at h0
    have := selectLoop_eq inds shape [] (List.replicate (inds.count (-1)) 0) h (by simp) hn
    simp only [List.length_nil, List.nil_append, if_neg h1] at this
    simp only [h0, if_false, this]

/-- **C70 fails for the edges of chains.** `contract(a, b)`, `contract(a, b, obs)` and the edges of `generate_env` all ask for
the first of several dimensions, so for dense chains they are undefined behaviour, whatever the chains. -/
theorem C70_default_fails [Semiring R] (c : R → R) (a b obs : List (Blk R)) :
    contractNormDefault c a b = Res.ub ∧ contractOpDefault c a b obs = Res.ub ∧
    ((∀ A ∈ a, A.dims.length = 3) → envEdges obs a = (Res.ub : Res (Blk R × Blk R))) := by
  have h3 : ∀ dims : List Nat, selectShape dims [-1, 0, 0] = Res.ub := by
    intro dims
    match dims with
    | [] => rfl
    | [_] => rfl
    | _ :: _ :: _ => rfl
  have hE : ∀ x y : Blk R, (eyeEdge x y [-1, 0, 0] : Res (Blk R)) = Res.ub := by
    intro x y
    simp only [eyeEdge, h3, Res.ub, bind, Except.bind]
  have hcons : ∀ x : List (Blk R), (∃ X, frontOf x = .ok X ∧ X ∈ x) ∨ frontOf x = Res.ub := by
    intro x
    match x with
    | [] => exact Or.inr rfl
    | X :: x => exact Or.inl ⟨X, rfl, by simp⟩
  refine ⟨?_, ?_, ?_⟩
  · unfold contractNormDefault
    rcases hcons a with ⟨A, hA, _⟩ | hA <;> rcases hcons b with ⟨B, hB, _⟩ | hB <;>
      simp only [hA, hB, hE, bind, Except.bind, Res.ub]
  · unfold contractOpDefault
    rcases hcons a with ⟨A, hA, _⟩ | hA <;> rcases hcons b with ⟨B, hB, _⟩ | hB <;>
      simp only [hA, hB, hE, bind, Except.bind, Res.ub]
  · intro ha
    unfold envEdges
    rcases hcons a with ⟨A, hA, hm⟩ | hA
    · have hl := ha A hm
      have : edgeShape A.dims 0 = Res.ub := by
        match hd : A.dims, hl with
        | [x, y, z], _ => simp [edgeShape, h3, List.replicate, Res.ub, bind, Except.bind]
      simp only [hA, this, bind, Except.bind, Res.ub]
    · simp only [hA, bind, Except.bind, Res.ub]

/-! ### Examples -/

/-- Two sites with physical dimension two, `a(σ) = σ₁ + 2 σ₂`. -/
def exKet : List (Blk ℤ) :=
  [⟨[1, 2, 2], fun o => if o.getD 2 0 = 0 then (o.getD 1 0 : ℤ) else 1⟩,
   ⟨[2, 2, 1], fun o => if o.getD 0 0 = 0 then 1 else 2 * (o.getD 1 0 : ℤ)⟩]

/-- The operator that exchanges the two states of the first site. -/
def exOp : List (Blk ℤ) :=
  [⟨[1, 2, 1, 2], fun o => if o.getD 1 0 = o.getD 3 0 then 0 else 1⟩,
   ⟨[1, 2, 1, 2], fun o => if o.getD 1 0 = o.getD 3 0 then 1 else 0⟩]

theorem exFit : Fit exKet exOp exKet := by
  refine ⟨⟨by simp [exKet], ?_⟩, ⟨by simp [exOp], ?_⟩, ⟨by simp [exKet], ?_⟩, rfl, rfl⟩ <;>
  · intro i s s' h1 h2
    match i, h1, h2 with
    | 0, h1, h2 => cases h1; cases h2; rfl
    | 1, h1, h2 => cases h2
    | _ + 2, h1, h2 => cases h1

attribute [local instance] starRingOfComm in
/-- The theorem applies, and the value it gives is not trivial: `⟨a|X₁|a⟩ = 12` while `⟨a|a⟩ = 14`. -/
example : (∃ x, contractOp star exKet exKet exOp (onesLike [1, 1, 1]) (onesLike [1, 1, 1]) = .ok x ∧ x.f [] = 12) ∧
    ∃ x, contractNorm star exKet exKet (onesLike [1, 1]) (onesLike [1, 1]) = .ok x ∧ x.f [] = 14 := by
  obtain ⟨⟨x, h1, h2⟩, y, h3, h4⟩ := C69_trivial_ends exKet exOp exKet (onesLike [1, 1, 1]) (onesLike [1, 1, 1]) (onesLike [1, 1])
    (onesLike [1, 1]) exFit (by simp [exKet]) rfl ⟨rfl, rfl, rfl, rfl, rfl, rfl⟩ ⟨rfl, rfl⟩ ⟨rfl, rfl⟩ ⟨rfl, rfl⟩ ⟨rfl, rfl⟩
  refine ⟨⟨x, h1, h2.trans ?_⟩, y, h3, h4.trans ?_⟩ <;> decide

end MP
end QuantiT
