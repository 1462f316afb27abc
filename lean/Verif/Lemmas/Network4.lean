import Verif.Lemmas.Network3
/-
Environments of a chain, and the state in which two sites are given by one tensor.
-/
namespace QuantiT
namespace MP
open Finset Spec
variable {R : Type}

theorem FitTo.split {a Ws a' Ws' : List (Blk R)} {N M : Cut} (hl : Ws.length = a.length)
    (h : FitTo (a ++ a') (Ws ++ Ws') (a ++ a') N M) : ∃ K, FitTo a Ws a N K ∧ FitTo a' Ws' a' K M := by
  induction a generalizing Ws N with
  | nil =>
    have : Ws = [] := List.length_eq_zero_iff.1 hl
    subst this
    exact ⟨N, FitTo.nil N, h⟩
  | cons A a ih =>
    match Ws, hl with
    | W :: Ws, hl =>
      cases h with
      | cons h1 h2 h3 h4 =>
        obtain ⟨K, k1, k2⟩ := ih (by simpa using hl) h4
        exact ⟨K, FitTo.cons h1 h2 h3 k1, k2⟩

/-- With the same chain as ket and as bra, equal ends stay equal. -/
theorem FitTo.same {a Ws : List (Blk R)} {N M : Cut} (h : FitTo a Ws a N M) (hn : N.1 = N.2.2) : M.1 = M.2.2 := by
  induction a generalizing Ws N with
  | nil => cases h; exact hn
  | cons A a ih =>
    cases h with
    | cons h1 h2 h3 h4 =>
      refine ih h4 ?_
      rw [h1] at h3
      simp only [List.cons.injEq] at h3
      exact h3.2.2.1

variable [CommSemiring R] [StarRing R]

theorem leftEnvs_eq (a Ws : List (Blk R)) (c : R → R) (L : Blk R) : leftEnvs c a Ws L = contractLoop c a a Ws L := by
  induction a generalizing Ws L with
  | nil => rfl
  | cons A a ih =>
    cases Ws with
    | nil => rfl
    | cons W Ws =>
      simp only [leftEnvs, contractLoop, ih]

theorem rightEnvs_ok {a Ws : List (Blk R)} {N M : Cut} (h : FitTo a Ws a N M) (hn : N.1 = N.2.2) (Rt : Blk R)
    (hR : Rt.dims = [M.1, M.2.1, M.2.2]) :
    ∃ R', rightEnvs star a Ws Rt = .ok R' ∧ R'.dims = [N.1, N.2.1, N.2.2] ∧
      ∀ X ∈ cuts N.1 N.2.1 N.2.2, at3 R' X = ∑ Z ∈ cuts M.1 M.2.1 M.2.2, chainKern a Ws a X Z * at3 Rt Z := by
  induction a generalizing Ws N with
  | nil =>
    cases h
    refine ⟨Rt, rfl, hR, fun X hX => ?_⟩
    rw [sum_eq_single X]
    · rw [chainKern_nil, if_pos rfl, one_mul]
    · intro Z _ hZ; rw [chainKern_nil, if_neg (Ne.symm hZ), zero_mul]
    · intro h; exact absurd hX h
  | cons A a ih =>
    cases h with
    | @cons _ W _ _ Ws _ _ _ s t n' m' p' h1 h2 h3 h4 =>
      have e := h1.symm.trans h3
      simp only [List.cons.injEq, and_true] at e
      obtain ⟨_, rfl, rfl⟩ := e
      obtain ⟨R1, k1, k2, k3⟩ := ih h4 rfl
      obtain ⟨R2, k4, k5, k6⟩ := envRight_ok k2 h1 h2
      refine ⟨R2, ?_, ?_, fun X _ => ?_⟩
      · simp only [rightEnvs, bind, Except.bind, k1, k4]
      · rw [k5, ← hn]
      · rw [k6]
        simp only [chainKern_cons, h1, h2, sum_mul]
        rw [sum_comm]
        refine sum_congr rfl fun Y hY => ?_
        rw [k3 Y hY, mul_sum]
        refine sum_congr rfl fun Z _ => ?_
        rw [mul_assoc]

omit [CommSemiring R] [StarRing R] in
theorem sum_configs_pair [AddCommMonoid R] (ds es : List Nat) (i j : Nat) (f : List Nat → R) :
    ∑ σ ∈ configs (ds ++ i :: j :: es), f σ
      = ∑ p ∈ configs ds ×ˢ ((range i ×ˢ range j) ×ˢ configs es), f (p.1 ++ p.2.1.1 :: p.2.1.2 :: p.2.2) := by
  rw [sum_configs_append, sum_product, sum_product]
  refine sum_congr rfl fun x _ => ?_
  rw [sum_configs_cons', sum_product, sum_product]
  refine sum_congr rfl fun y _ => ?_
  rw [sum_configs_cons']

/-- Kernel of the chain in which two sites are given by one tensor. -/
theorem pairKern_chain (pre post preW postW : List (Blk R)) (θ φ H : Blk R) (W1 W2 : Blk R) (i j n n' m m' : Nat)
    (hθ : θ.dims = [n, i, j, n']) (hφ : φ.dims = [n, i, j, n']) (hl : preW.length = pre.length)
    (hm : preW ≠ [] → rightEnd preW = m) (hm' : W2.dims.getD 2 0 = m')
    (hH : ∀ w t u w' s v, w' < m' → H.f [w, t, u, w', s, v] = opEntry [W1, W2] [t, u] [s, v] w w')
    (X Z : Cut) (hX : X ∈ cuts n m n ∨ preW ≠ []) :
    pairSandwich pre θ φ post (preW ++ W1 :: W2 :: postW) (phys pre ++ i :: j :: phys post) X.1 X.2.1 X.2.2 Z.1 Z.2.1 Z.2.2
      = ∑ Y ∈ cuts n m n, chainKern pre preW pre X Y * ∑ V ∈ cuts n' m' n', pairKern θ H φ i j i j Y V * chainKern post postW post V Z := by
  have hlen : ∀ {s : List (Blk R)} {σ : List Nat}, σ ∈ configs (phys s) → σ.length = s.length := by
    intro s σ h
    rw [(mem_configs.1 h).length_eq]; simp [phys]
  have e1 : ∀ Y, ∑ V ∈ cuts n' m' n', pairKern θ H φ i j i j Y V * chainKern post postW post V Z
      = kern ((range i ×ˢ range j) ×ˢ configs (phys post)) ((range i ×ˢ range j) ×ˢ configs (phys post))
        (fun s l r => ∑ k ∈ range n', θ.f [l, s.1.1, s.1.2, k] * amp post s.2 k r)
        (fun t s l r => ∑ k ∈ range m', H.f [l, t.1.1, t.1.2, k, s.1.1, s.1.2] * opEntry postW t.2 s.2 k r)
        (fun s l r => ∑ k ∈ range n', φ.f [l, s.1.1, s.1.2, k] * amp post s.2 k r) Y Z := by
    intro Y
    unfold pairKern chainKern
    rw [← kern_comp]
  simp only [e1]
  unfold chainKern
  rw [← kern_comp]
  unfold pairSandwich
  simp only [sum_configs_pair]
  unfold kern
  refine sum_congr rfl fun s hs => sum_congr rfl fun t ht => ?_
  obtain ⟨σ, ⟨s1, s2⟩, σ'⟩ := s
  obtain ⟨τ, ⟨t1, t2⟩, τ'⟩ := t
  rw [Finset.mem_product] at hs ht
  have hσ : σ.length = pre.length := hlen hs.1
  have hτ : τ.length = pre.length := hlen ht.1
  -- the two states
  have hp : ∀ (ψ : Blk R) (ρ : List Nat) (r1 r2 : Nat) (ρ' : List Nat) (l r : Nat), ψ.dims = [n, i, j, n'] → ρ.length = pre.length →
      pairAmp pre ψ post (ρ ++ r1 :: r2 :: ρ') l r
        = ∑ k ∈ range n, amp pre ρ l k * ∑ k' ∈ range n', ψ.f [k, r1, r2, k'] * amp post ρ' k' r := by
    intro ψ ρ r1 r2 ρ' l r hψ hρ
    unfold pairAmp
    rw [hψ, ← hρ]
    simp only [List.take_left', mul_sum]
    refine sum_congr rfl fun k _ => sum_congr rfl fun k' _ => ?_
    rw [mul_assoc]
    have d : (ρ ++ r1 :: r2 :: ρ').drop (ρ.length + 2) = ρ' := by
      rw [← List.drop_drop]; simp
    have g1 : (ρ ++ r1 :: r2 :: ρ').getD ρ.length 0 = r1 := by simp [List.getD]
    have g2 : (ρ ++ r1 :: r2 :: ρ').getD (ρ.length + 1) 0 = r2 := by
      simp [List.getD, List.getElem?_append_right]
    rw [d, g1, g2]
  rw [hp θ σ s1 s2 σ' _ _ hθ hσ, hp φ τ t1 t2 τ' _ _ hφ hτ]
  congr 2
  -- the operator
  have ht2 : ∀ w, opEntry (W1 :: W2 :: postW) (t1 :: t2 :: τ') (s1 :: s2 :: σ') w Z.2.1
      = ∑ k ∈ range m', H.f [w, t1, t2, k, s1, s2] * opEntry postW τ' σ' k Z.2.1 := by
    intro w
    have := opEntry_append [W1, W2] postW [t1, t2] [s1, s2] τ' σ' w Z.2.1 (by simp) rfl rfl
    simp only [List.cons_append, List.nil_append] at this
    rw [this]
    have hr : rightEnd [W1, W2] = m' := by rw [← hm']; rfl
    rw [hr]
    refine sum_congr rfl fun k hk => ?_
    rw [hH _ _ _ _ _ _ (mem_range.1 hk)]
  by_cases hn : preW = []
  · subst hn
    have hpn : pre = [] := List.length_eq_zero_iff.1 hl.symm
    subst hpn
    have hσ' : σ = [] := List.length_eq_zero_iff.1 hσ
    have hτ' : τ = [] := List.length_eq_zero_iff.1 hτ
    subst hσ' hτ'
    simp only [List.nil_append]
    rw [ht2]
    have hx : X.2.1 < m := by
      rcases hX with h | h
      · rw [cuts, Finset.mem_product, Finset.mem_product] at h
        exact mem_range.1 h.2.1
      · exact absurd rfl h
    symm
    rw [sum_eq_single X.2.1]
    · simp [opEntry, mpoEntry]
    · intro k _ hk
      simp [opEntry, mpoEntry, Ne.symm hk]
    · intro h; exact absurd (mem_range.2 hx) h
  · rw [opEntry_append preW _ τ σ _ _ _ _ hn (by rw [hτ, hl]) (by rw [hσ, hl]), hm hn]
    refine sum_congr rfl fun k _ => ?_
    rw [ht2]

end MP
end QuantiT
