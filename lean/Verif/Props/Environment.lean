import Verif.Lemmas.Network4
import Verif.Props.Network
/-
Environments and the two-site Hamiltonian (C71).
-/
namespace QuantiT
namespace MP
open Finset Spec
variable {R : Type}

theorem FitTo.op_end {a Ws b : List (Blk R)} {N M : Cut} (h : FitTo a Ws b N M) (hn : Ws ≠ []) : rightEnd Ws = M.2.1 := by
  induction h with
  | nil => exact absurd rfl hn
  | @cons A W B a Ws b N M s t n' m' p' h1 h2 h3 h4 ih =>
    cases Ws with
    | nil =>
      cases h4
      simp [rightEnd, h2]
    | cons W' Ws => rw [rightEnd_cons]; exact ih (by simp)

variable [CommSemiring R] [StarRing R]

/-- The environments and the two-site Hamiltonian of a pair of sites, and what they make of a two-site tensor. -/
theorem effective_setup (pre post preW postW : List (Blk R)) (A B W1 W2 L0 R0 : Blk R)
    (h : Fit (pre ++ A :: B :: post) (preW ++ W1 :: W2 :: postW) (pre ++ A :: B :: post)) (hl : preW.length = pre.length)
    (hL : L0.dims = [leftEnd (pre ++ A :: B :: post), leftEnd (preW ++ W1 :: W2 :: postW), leftEnd (pre ++ A :: B :: post)])
    (hR : R0.dims = [rightEnd (pre ++ A :: B :: post), rightEnd (preW ++ W1 :: W2 :: postW), rightEnd (pre ++ A :: B :: post)]) :
    ∃ Le Re H2 m m', leftEnvs star pre preW L0 = .ok Le ∧ rightEnvs star post postW R0 = .ok Re ∧ twoSite W1 W2 = .ok H2 ∧
      Le.dims = [A.dims.getD 0 0, m, A.dims.getD 0 0] ∧ Re.dims = [B.dims.getD 2 0, m', B.dims.getD 2 0] ∧
      H2.dims = [m, A.dims.getD 1 0, B.dims.getD 1 0, m', A.dims.getD 1 0, B.dims.getD 1 0] ∧
      ∀ θ φ : Blk R, θ.dims = [A.dims.getD 0 0, A.dims.getD 1 0, B.dims.getD 1 0, B.dims.getD 2 0] → φ.dims = θ.dims →
      ∃ θ', hamil2site θ H2 Le Re = .ok θ' ∧ θ'.dims = θ.dims ∧
      ∑ o ∈ configs θ.dims, θ'.f o * star (φ.f o)
        = ∑ l ∈ range (L0.dims.getD 0 0), ∑ w ∈ range (L0.dims.getD 1 0), ∑ l' ∈ range (L0.dims.getD 2 0),
          ∑ r ∈ range (R0.dims.getD 0 0), ∑ w' ∈ range (R0.dims.getD 1 0), ∑ r' ∈ range (R0.dims.getD 2 0),
            L0.f [l, w, l'] * pairSandwich pre θ φ post (preW ++ W1 :: W2 :: postW) (phys (pre ++ A :: B :: post)) l w l' r w' r'
              * R0.f [r, w', r'] := by
  have hto := Fit.to h (by simp)
  generalize hN : (leftEnd (pre ++ A :: B :: post), leftEnd (preW ++ W1 :: W2 :: postW), leftEnd (pre ++ A :: B :: post)) = N at hto
  generalize hM : (rightEnd (pre ++ A :: B :: post), rightEnd (preW ++ W1 :: W2 :: postW), rightEnd (pre ++ A :: B :: post)) = M at hto
  have hN3 : N.1 = N.2.2 := by rw [← hN]
  have hL' : L0.dims = [N.1, N.2.1, N.2.2] := by rw [hL, ← hN]
  have hR' : R0.dims = [M.1, M.2.1, M.2.2] := by rw [hR, ← hM]
  obtain ⟨K, f1, f2⟩ := FitTo.split hl hto
  have hK3 : K.1 = K.2.2 := FitTo.same f1 hN3
  have hKop : preW ≠ [] → rightEnd preW = K.2.1 := FitTo.op_end f1
  have hKN : preW = [] → K = N := by
    rintro rfl
    have : pre = [] := List.length_eq_zero_iff.1 hl.symm
    subst this
    cases f1; rfl
  cases f2 with
  | @cons _ _ _ _ _ _ _ _ s t n1 m1 p1 a1 a2 a3 f3 =>
  cases f3 with
  | @cons _ _ _ _ _ _ _ _ s' t' n2 m2 p2 b1 b2 b3 f4 =>
  have e1 := a1.symm.trans a3
  simp only [List.cons.injEq, and_true] at e1
  obtain ⟨_, rfl, rfl⟩ := e1
  have e2 := b1.symm.trans b3
  simp only [List.cons.injEq, and_true, true_and] at e2
  obtain ⟨rfl, rfl⟩ := e2
  obtain ⟨Le, l1, l2, l3⟩ := contractLoop_ok f1 L0 hL'
  obtain ⟨Re, r1, r2, r3⟩ := rightEnvs_ok f4 rfl R0 hR'
  obtain ⟨H2, g1, g2, g3⟩ := twoSite_ok a2 b2
  rw [← leftEnvs_eq] at l1
  refine ⟨Le, Re, H2, K.2.1, m2, l1, r1, g1, ?_, ?_, ?_, ?_⟩
  · rw [l2, a1, ← hK3]; rfl
  · rw [r2, b1]; rfl
  · rw [g2, a1, b1]; rfl
  intro θ φ hθ hφ
  rw [a1, b1] at hθ
  simp only [List.getD_cons_zero, List.getD_cons_succ] at hθ
  obtain ⟨θ', t1, t2, t3⟩ := hamil2site_ok l2 r2 g2 hθ
  refine ⟨θ', t1, ?_, ?_⟩
  · rw [t2, hθ, hK3]
  have hq := fun X Z hX => pairKern_chain pre post preW postW θ φ H2 W1 W2 s s' K.1 n2 K.2.1 m2 hθ (hφ.trans hθ) hl hKop
    (by rw [b2]; rfl) (fun w t u w' x v hw => g3 w t u w' x v hw) X Z hX
  have hph : phys (pre ++ A :: B :: post) = phys pre ++ s :: s' :: phys post := by
    simp [phys, a1, b1]
  rw [hθ]
  have hp := hamil2site_pair (p := K.2.2) (p' := n2) (i' := s) (j' := s') t3 φ
  rw [hK3]
  simp only [hK3] at hp
  rw [hp]
  simp only [hL', hR', List.getD_cons_zero, List.getD_cons_succ, hph]
  have key : ∀ X ∈ cuts N.1 N.2.1 N.2.2, ∀ Z ∈ cuts M.1 M.2.1 M.2.2,
      at3 L0 X * pairSandwich pre θ φ post (preW ++ W1 :: W2 :: postW) (phys pre ++ s :: s' :: phys post) X.1 X.2.1 X.2.2 Z.1 Z.2.1 Z.2.2
        * at3 R0 Z
      = ∑ Y ∈ cuts K.2.2 K.2.1 K.2.2, ∑ V ∈ cuts n2 m2 n2, (at3 L0 X * chainKern pre preW pre X Y) * pairKern θ H2 φ s s' s s' Y V
          * (chainKern post postW post V Z * at3 R0 Z) := by
    intro X hXm Z _
    have hX : X ∈ cuts K.1 K.2.1 K.1 ∨ preW ≠ [] := by
      by_cases hn : preW = []
      · left
        rw [hKN hn]
        rwa [← hN3] at hXm
      · exact Or.inr hn
    rw [hq X Z hX, hK3, mul_sum, sum_mul]
    refine sum_congr rfl fun Y _ => ?_
    rw [mul_sum, mul_sum, sum_mul]
    refine sum_congr rfl fun V _ => ?_
    ring
  have hrhs : ∑ l ∈ range N.1, ∑ w ∈ range N.2.1, ∑ l' ∈ range N.2.2, ∑ r ∈ range M.1, ∑ w' ∈ range M.2.1, ∑ r' ∈ range M.2.2,
      L0.f [l, w, l'] * pairSandwich pre θ φ post (preW ++ W1 :: W2 :: postW) (phys pre ++ s :: s' :: phys post) l w l' r w' r' * R0.f [r, w', r']
      = ∑ X ∈ cuts N.1 N.2.1 N.2.2, ∑ Z ∈ cuts M.1 M.2.1 M.2.2, at3 L0 X * pairSandwich pre θ φ post (preW ++ W1 :: W2 :: postW)
        (phys pre ++ s :: s' :: phys post) X.1 X.2.1 X.2.2 Z.1 Z.2.1 Z.2.2 * at3 R0 Z := by
    rw [sum_cuts]
    refine sum_congr rfl fun l _ => sum_congr rfl fun w _ => sum_congr rfl fun l' _ => ?_
    rw [sum_cuts]
    rfl
  rw [hrhs, sum_congr rfl fun X hX => sum_congr rfl fun Z hZ => key X hX Z hZ]
  have hl3 : ∀ Y ∈ cuts K.2.2 K.2.1 K.2.2, at3 Le Y = ∑ X ∈ cuts N.1 N.2.1 N.2.2, at3 L0 X * chainKern pre preW pre X Y := by
    intro Y hY
    exact l3 Y (by rwa [hK3])
  have hlhs : ∑ Y ∈ cuts K.2.2 K.2.1 K.2.2, ∑ V ∈ cuts n2 m2 n2, at3 Le Y * pairKern θ H2 φ s s' s s' Y V * at3 Re V
      = ∑ Y ∈ cuts K.2.2 K.2.1 K.2.2, ∑ V ∈ cuts n2 m2 n2, ∑ X ∈ cuts N.1 N.2.1 N.2.2, ∑ Z ∈ cuts M.1 M.2.1 M.2.2,
        (at3 L0 X * chainKern pre preW pre X Y) * pairKern θ H2 φ s s' s s' Y V * (chainKern post postW post V Z * at3 R0 Z) := by
    refine sum_congr rfl fun Y hY => sum_congr rfl fun V hV => ?_
    rw [hl3 Y hY, r3 V hV, sum_mul, sum_mul_sum]
  rw [hlhs]
  simp only [sum_sigma']
  refine sum_nbij' (fun ⟨Y, V, X, Z⟩ => ⟨X, Z, Y, V⟩) (fun ⟨X, Z, Y, V⟩ => ⟨Y, V, X, Z⟩) ?_ ?_ ?_ ?_ ?_
  · rintro ⟨Y, V, X, Z⟩ hq
    simp only [mem_sigma] at hq ⊢
    tauto
  · rintro ⟨X, Z, Y, V⟩ hq
    simp only [mem_sigma] at hq ⊢
    tauto
  · rintro ⟨Y, V, X, Z⟩ _; rfl
  · rintro ⟨X, Z, Y, V⟩ _; rfl
  · rintro ⟨Y, V, X, Z⟩ _; rfl

/-- **C71.** For a chain with two neighbouring sites replaced by any tensor `θ`: the environments of the other sites and
the two-site Hamiltonian that DMRG computes make `hamil2site_times_state` the compression of the whole operator.  Its
inner product with any two-site tensor `φ` is `⟨Ψ(φ)| H |Ψ(θ)⟩`, the sum over all configurations of the chain, closed
by the two edges. -/
theorem C71_effective (pre post preW postW : List (Blk R)) (A B W1 W2 θ φ L0 R0 : Blk R)
    (h : Fit (pre ++ A :: B :: post) (preW ++ W1 :: W2 :: postW) (pre ++ A :: B :: post)) (hl : preW.length = pre.length)
    (hL : L0.dims = [leftEnd (pre ++ A :: B :: post), leftEnd (preW ++ W1 :: W2 :: postW), leftEnd (pre ++ A :: B :: post)])
    (hR : R0.dims = [rightEnd (pre ++ A :: B :: post), rightEnd (preW ++ W1 :: W2 :: postW), rightEnd (pre ++ A :: B :: post)])
    (hθ : θ.dims = [A.dims.getD 0 0, A.dims.getD 1 0, B.dims.getD 1 0, B.dims.getD 2 0]) (hφ : φ.dims = θ.dims) :
    ∃ Le Re H2 θ', leftEnvs star pre preW L0 = .ok Le ∧ rightEnvs star post postW R0 = .ok Re ∧ twoSite W1 W2 = .ok H2 ∧
      hamil2site θ H2 Le Re = .ok θ' ∧ θ'.dims = θ.dims ∧
      ∑ o ∈ configs θ.dims, θ'.f o * star (φ.f o)
        = ∑ l ∈ range (L0.dims.getD 0 0), ∑ w ∈ range (L0.dims.getD 1 0), ∑ l' ∈ range (L0.dims.getD 2 0),
          ∑ r ∈ range (R0.dims.getD 0 0), ∑ w' ∈ range (R0.dims.getD 1 0), ∑ r' ∈ range (R0.dims.getD 2 0),
            L0.f [l, w, l'] * pairSandwich pre θ φ post (preW ++ W1 :: W2 :: postW) (phys (pre ++ A :: B :: post)) l w l' r w' r'
              * R0.f [r, w', r'] := by
  obtain ⟨Le, Re, H2, m, m', h1, h2, h3, _, _, _, h4⟩ := effective_setup pre post preW postW A B W1 W2 L0 R0 h hl hL hR
  obtain ⟨θ', h5, h6, h7⟩ := h4 θ φ hθ hφ
  exact ⟨Le, Re, H2, θ', h1, h2, h3, h5, h6, h7⟩

/-- A chain is the state in which two of its sites are given by their product. -/
theorem pairAmp_prod (pre post : List (Blk R)) (A B θ : Blk R) (n i m j n' : Nat) (hA : A.dims = [n, i, m]) (hB : B.dims = [m, j, n'])
    (hθ' : θ.dims = [n, i, j, n'])
    (hθf : ∀ x s t y, x < n → s < i → t < j → y < n' → θ.f [x, s, t, y] = ∑ k ∈ range m, A.f [x, s, k] * B.f [k, t, y]) (hpre : pre ≠ [] → rightEnd pre = n) (σ : List Nat)
    (hσ : σ ∈ configs (phys (pre ++ A :: B :: post))) (l r : Nat) (hln : pre = [] → l < n) :
    pairAmp pre θ post σ l r = amp (pre ++ A :: B :: post) σ l r := by
  rw [phys, List.map_append, mem_configs] at hσ
  obtain ⟨x, y, rfl, hx, hy⟩ := inRange_append_iff hσ
  cases hy with
  | @cons s _ y _ hs hy =>
  cases hy with
  | @cons t _ y _ ht hy =>
  simp only [hA, List.getD_cons_zero, List.getD_cons_succ] at hs
  simp only [hB, List.getD_cons_zero, List.getD_cons_succ] at ht
  have hxl : x.length = pre.length := by rw [hx.length_eq]; simp
  have e2 : ∀ k, k < n → amp (A :: B :: post) (s :: t :: y) k r = ∑ k' ∈ range n', θ.f [k, s, t, k'] * amp post y k' r := by
    intro k hk
    simp only [amp, hA, hB, List.getD_cons_zero, List.getD_cons_succ, mul_sum]
    rw [sum_comm]
    refine sum_congr rfl fun a ha => ?_
    rw [hθf k s t a hk hs ht (mem_range.1 ha), sum_mul]
    refine sum_congr rfl fun b _ => ?_
    ring
  unfold pairAmp
  rw [hθ', ← hxl]
  have d : (x ++ s :: t :: y).drop (x.length + 2) = y := by
    rw [← List.drop_drop]; simp
  have g1 : (x ++ s :: t :: y).getD x.length 0 = s := by simp [List.getD]
  have g2 : (x ++ s :: t :: y).getD (x.length + 1) 0 = t := by simp [List.getD]
  simp only [List.take_left', d, g1, g2, List.getD_cons_zero, List.getD_cons_succ]
  by_cases hp : pre = []
  · subst hp
    have : x = [] := List.length_eq_zero_iff.1 hxl
    subst this
    simp only [List.nil_append]
    rw [e2 l (hln rfl), sum_eq_single l]
    · simp [amp]
    · intro k _ hk
      exact sum_eq_zero fun k' _ => by simp [amp, Ne.symm hk]
    · intro h; exact absurd (mem_range.2 (hln rfl)) h
  · rw [amp_append pre _ x _ l r hp hxl, hpre hp]
    refine sum_congr rfl fun k hk => ?_
    rw [e2 k (mem_range.1 hk), mul_sum]
    refine sum_congr rfl fun k' _ => ?_
    ring

theorem pairAmp_dot (pre post : List (Blk R)) (A B θ : Blk R) (n i m j n' : Nat) (hA : A.dims = [n, i, m]) (hB : B.dims = [m, j, n'])
    (hθ : dot1 A B 2 0 = .ok θ) (hpre : pre ≠ [] → rightEnd pre = n) (σ : List Nat)
    (hσ : σ ∈ configs (phys (pre ++ A :: B :: post))) (l r : Nat) (hln : pre = [] → l < n) :
    pairAmp pre θ post σ l r = amp (pre ++ A :: B :: post) σ l r := by
  have hθ' : θ.dims = [n, i, j, n'] ∧ ∀ x s t y, θ.f [x, s, t, y] = ∑ k ∈ range m, A.f [x, s, k] * B.f [k, t, y] := by
    simp [dot1, hA, hB] at hθ
    subst hθ
    exact ⟨rfl, fun x s t y => rfl⟩
  exact pairAmp_prod pre post A B θ n i m j n' hA hB hθ'.1 (fun x s t y _ _ _ _ => hθ'.2 x s t y) hpre σ hσ l r hln

/-- **C71.** The energy that a local update starts from, `tensordot(hamil2site_times_state(ψ), conj(ψ))` for the product `ψ` of
the two current sites, is `contract(state, state, hamiltonian)` with the same edges: the expectation value of the whole
Hamiltonian in the whole state. -/
theorem C71_energy (pre post preW postW : List (Blk R)) (A B W1 W2 L0 R0 : Blk R)
    (h : Fit (pre ++ A :: B :: post) (preW ++ W1 :: W2 :: postW) (pre ++ A :: B :: post)) (hl : preW.length = pre.length)
    (hL : L0.dims = [leftEnd (pre ++ A :: B :: post), leftEnd (preW ++ W1 :: W2 :: postW), leftEnd (pre ++ A :: B :: post)])
    (hR : R0.dims = [rightEnd (pre ++ A :: B :: post), rightEnd (preW ++ W1 :: W2 :: postW), rightEnd (pre ++ A :: B :: post)]) :
    ∃ ψ Le Re H2 ψ' e x, dot1 A B 2 0 = .ok ψ ∧ leftEnvs star pre preW L0 = .ok Le ∧ rightEnvs star post postW R0 = .ok Re ∧
      twoSite W1 W2 = .ok H2 ∧ hamil2site ψ H2 Le Re = .ok ψ' ∧
      tdot ψ' (conjBlk star ψ) [0, 1, 2, 3] [0, 1, 2, 3] = .ok e ∧
      contractOp star (pre ++ A :: B :: post) (pre ++ A :: B :: post) (preW ++ W1 :: W2 :: postW) L0 R0 = .ok x ∧
      e.f [] = x.f [] := by
  obtain ⟨n, i, m, hA⟩ : ∃ n i m, A.dims = [n, i, m] := ⟨_, _, _, dims3 (h.ket.1 A.dims (by simp))⟩
  obtain ⟨m', j, n', hB⟩ : ∃ n i m, B.dims = [n, i, m] := ⟨_, _, _, dims3 (h.ket.1 B.dims (by simp))⟩
  have hto := Fit.to h (by simp)
  obtain ⟨K, f1, f2⟩ := FitTo.split hl hto
  have hKA : K.1 = n ∧ m' = m := by
    cases f2 with
    | cons a1 a2 a3 f3 =>
    cases f3 with
    | cons b1 b2 b3 f4 =>
      rw [hA] at a1
      rw [hB] at b1
      simp only [List.cons.injEq, and_true] at a1 b1
      exact ⟨a1.1.symm, by rw [b1.1, ← a1.2.2]⟩
  obtain ⟨hKA, rfl⟩ := hKA
  obtain ⟨ψ, hψ, hψd⟩ : ∃ ψ, dot1 A B 2 0 = .ok ψ ∧ ψ.dims = [n, i, j, n'] := by
    refine ⟨_, by simp [dot1, hA, hB]; rfl, ?_⟩
    simp
  have hpre : pre ≠ [] → rightEnd pre = n := by
    intro hp
    rw [← hKA]
    have hket : ∀ {a Ws b : List (Blk R)} {N M : Cut}, FitTo a Ws b N M → a ≠ [] → rightEnd a = M.1 := by
      intro a Ws b N M hf
      induction hf with
      | nil => intro h; exact absurd rfl h
      | @cons A W B a Ws b N M s t n' m' p' h1 h2 h3 h4 ih =>
        intro _
        cases a with
        | nil => cases h4; simp [rightEnd, h1]
        | cons A' a => rw [rightEnd_cons]; exact ih (by simp)
    exact hket f1 hp
  have hleft : pre = [] → leftEnd (pre ++ A :: B :: post) = n := by
    rintro rfl
    simp [leftEnd, hA]
  obtain ⟨Le, Re, H2, ψ', g1, g2, g3, g4, g5, g6⟩ := C71_effective pre post preW postW A B W1 W2 ψ ψ L0 R0 h hl hL hR
    (by rw [hψd, hA, hB]; rfl) rfl
  obtain ⟨x, k1, k2, k3⟩ := C69_operator _ _ _ L0 R0 h (by simp) hL hR
  rw [hψd] at g5
  obtain ⟨e, he, hef⟩ : ∃ e, tdot ψ' (conjBlk star ψ) [0, 1, 2, 3] [0, 1, 2, 3] = .ok e ∧
      e.f [] = ∑ o ∈ configs [n, i, j, n'], ψ'.f o * star (ψ.f o) := by
    obtain ⟨pd, pf⟩ := ψ
    obtain ⟨qd, qf⟩ := ψ'
    simp only at g5 hψd
    subst g5 hψd
    refine ⟨_, by simp [tdot, conjBlk, others, List.range, List.range.loop]; rfl, ?_⟩
    simp only [sum_configs_cons', sum_configs_nil]
    rfl
  refine ⟨ψ, Le, Re, H2, ψ', e, x, hψ, g1, g2, g3, g4, he, k1, ?_⟩
  rw [hef, k3, ← hψd, g6, hL, hR]
  simp only [List.getD_cons_zero, List.getD_cons_succ]
  refine sum_congr rfl fun l hl1 => sum_congr rfl fun w _ => sum_congr rfl fun l' hl2 => sum_congr rfl fun r _ =>
    sum_congr rfl fun w' _ => sum_congr rfl fun r' _ => ?_
  congr 2
  unfold pairSandwich sandwich
  refine sum_congr rfl fun σ hσ => sum_congr rfl fun τ hτ => ?_
  rw [pairAmp_dot pre post A B ψ n i m' j n' hA hB hψ hpre σ hσ l r (fun hp => by rw [← hleft hp]; exact mem_range.1 hl1),
    pairAmp_dot pre post A B ψ n i m' j n' hA hB hψ hpre τ hτ l' r' (fun hp => by rw [← hleft hp]; exact mem_range.1 hl2)]

/-! ### Example -/

/-- Three sites with physical dimension two, `a(σ) = σ₁ + 2 σ₂ + σ₃`. -/
def exThree : List (Blk ℤ) :=
  [⟨[1, 2, 2], fun o => if o.getD 2 0 = 0 then (o.getD 1 0 : ℤ) else 1⟩,
   ⟨[2, 2, 2], fun o => if o.getD 0 0 = o.getD 2 0 then 1 else if o.getD 0 0 = 1 then 2 * (o.getD 1 0 : ℤ) else 0⟩,
   ⟨[2, 2, 1], fun o => if o.getD 0 0 = 0 then 1 else (o.getD 1 0 : ℤ)⟩]

/-- Exchange of the two states of the first site plus twice the number of the second, with a bond of size two. -/
def exThreeOp : List (Blk ℤ) :=
  [⟨[1, 2, 2, 2], fun o => if o.getD 2 0 = 0 then (if o.getD 1 0 = o.getD 3 0 then 0 else 1) else (if o.getD 1 0 = o.getD 3 0 then 1 else 0)⟩,
   ⟨[2, 2, 1, 2], fun o => if o.getD 1 0 = o.getD 3 0 then (if o.getD 0 0 = 0 then 1 else 2 * (o.getD 1 0 : ℤ)) else 0⟩,
   ⟨[1, 2, 1, 2], fun o => if o.getD 1 0 = o.getD 3 0 then 1 else 0⟩]

theorem exThreeFit : Fit exThree exThreeOp exThree := by
  refine ⟨⟨by simp [exThree], ?_⟩, ⟨by simp [exThreeOp], ?_⟩, ⟨by simp [exThree], ?_⟩, rfl, rfl⟩ <;>
  · intro i s s' h1 h2
    match i, h1, h2 with
    | 0, h1, h2 => cases h1; cases h2; rfl
    | 1, h1, h2 => cases h1; cases h2; rfl
    | 2, h1, h2 => cases h2
    | _ + 3, h1, h2 => cases h1

attribute [local instance] starRingOfComm in
/-- The hypotheses of `C71_energy`, and so of `C71_effective`, are met by a chain with one site to the left of the pair, and
the energy is not trivial. -/
example : ∃ pre post preW postW A B W1 W2, pre ++ A :: B :: post = exThree ∧ preW ++ W1 :: W2 :: postW = exThreeOp ∧
    preW.length = pre.length ∧ ∃ ψ Le Re H2 ψ' e, dot1 A B 2 0 = .ok ψ ∧ leftEnvs star pre preW (onesLike [1, 1, 1]) = .ok Le ∧
      rightEnvs star post postW (onesLike [1, 1, 1]) = .ok Re ∧ twoSite W1 W2 = .ok H2 ∧ hamil2site ψ H2 Le Re = .ok ψ' ∧
      tdot ψ' (conjBlk star ψ) [0, 1, 2, 3] [0, 1, 2, 3] = .ok e ∧ e.f [] = 116 := by
  obtain ⟨ψ, Le, Re, H2, ψ', e, x, h1, h2, h3, h4, h5, h6, h7, h8⟩ := C71_energy (exThree.take 1) [] (exThreeOp.take 1) []
    exThree[1] exThree[2] exThreeOp[1] exThreeOp[2] (onesLike [1, 1, 1]) (onesLike [1, 1, 1]) exThreeFit rfl rfl rfl
  obtain ⟨x', h9, _, h10⟩ := C69_operator exThree exThreeOp exThree (onesLike [1, 1, 1]) (onesLike [1, 1, 1]) exThreeFit
    (by simp [exThree]) rfl rfl
  refine ⟨exThree.take 1, [], exThreeOp.take 1, [], exThree[1], exThree[2], exThreeOp[1], exThreeOp[2], rfl, rfl, rfl, ψ, Le, Re, H2, ψ', e, h1, h2, h3, h4, h5, h6, ?_⟩
  have hx : x = x' := Except.ok.inj (h7.symm.trans h9)
  rw [h8, hx, h10]
  set_option maxRecDepth 100000 in decide

end MP
end QuantiT
