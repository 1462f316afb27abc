import Verif.Props.Variational
import Verif.Lemmas.Dmrg
import Verif.Props.DmrgDense
/-
One two-site update of the dense DMRG, with all its tensors (C73).
-/
namespace QuantiT
namespace DM
open Finset Spec MP
variable {𝕜 : Type} [RCLike 𝕜]

/-- The residual `H ψ - e ψ` has norm at least 1e-15. -/
def Improvable (ψ ψ' : Blk 𝕜) (e : ℝ) : Prop :=
  (1e-15 : ℝ) ^ 2 ≤ ∑ o ∈ configs ψ.dims, ‖ψ'.f o - (e : 𝕜) * ψ.f o‖ ^ 2

/-- `ψ` is an eigenvector with negative eigenvalue. -/
def Settled (ψ ψ' : Blk 𝕜) (e : ℝ) : Prop := e < 0 ∧ ∀ o ∈ configs ψ.dims, ψ'.f o = (e : 𝕜) * ψ.f o

/-- The tensors the update at the pair `o`, `o + 1` starts from: the two-site tensor and its product with the effective
Hamiltonian. -/
def PairTensors (Ws s : List (Blk 𝕜)) (o : Nat) (ψ ψ' : Blk 𝕜) : Prop :=
  ∃ A B W1 W2 Le Re H2, s[o]? = some A ∧ s[o + 1]? = some B ∧ Ws[o]? = some W1 ∧ Ws[o + 1]? = some W2 ∧
    dot1 A B 2 0 = .ok ψ ∧ leftEnvs star (s.take o) (Ws.take o) (onesLike [1, 1, 1]) = .ok Le ∧
    rightEnvs star (s.drop (o + 2)) (Ws.drop (o + 2)) (onesLike [1, 1, 1]) = .ok Re ∧ twoSite W1 W2 = .ok H2 ∧
    hamil2site ψ H2 Le Re = .ok ψ'

/-- The cases in which one Lanczos step does what it should, see `C54_eigenvector_fails` for the others. -/
def Regular (Ws s : List (Blk 𝕜)) (o : Nat) : Prop :=
  ∀ ψ ψ', PairTensors Ws s o ψ ψ' → Improvable ψ ψ' (energy Ws s) ∨ Settled ψ ψ' (energy Ws s)

/-! ### Environments by index -/

theorem foldl_lenv_error (Ws : List (Blk 𝕜)) (f : Fault) : ∀ (l : List (Blk 𝕜 × Nat)),
    l.foldl (fun acc p => lenvBlk Ws p.2 p.1 acc) (.error f) = .error f
  | [] => rfl
  | p :: l => by
    rw [List.foldl_cons]
    exact foldl_lenv_error Ws f l

theorem foldl_lenv (Ws : List (Blk 𝕜)) : ∀ (l : List (Blk 𝕜)) (k : Nat) (L : Blk 𝕜),
    (l.zipIdx k).foldl (fun acc p => lenvBlk Ws p.2 p.1 acc) (.ok L) = leftEnvs star l (Ws.drop k) L
  | [], k, L => by simp [leftEnvs]
  | A :: l, k, L => by
    rw [List.zipIdx_cons, List.foldl_cons]
    cases hw : Ws[k]? with
    | none =>
      have hd : Ws.drop k = [] := List.drop_eq_nil_of_le (List.getElem?_eq_none_iff.1 hw)
      rw [hd]
      have : lenvBlk Ws k A (.ok L) = Res.ub := by
        unfold lenvBlk
        simp only [bind, Except.bind, hw, BT.orUb]
        rfl
      rw [this]
      exact foldl_lenv_error Ws _ _
    | some W =>
      have hd : Ws.drop k = W :: Ws.drop (k + 1) := by
        obtain ⟨hk, hg⟩ := List.getElem?_eq_some_iff.1 hw
        rw [List.drop_eq_getElem_cons hk, hg]
      rw [hd]
      have : lenvBlk Ws k A (.ok L) = envLeft star W A A L := by
        unfold lenvBlk
        simp only [bind, Except.bind, hw, BT.orUb]
      rw [this]
      unfold leftEnvs
      cases he : envLeft star W A A L with
      | error f => exact foldl_lenv_error Ws f _
      | ok L' =>
        rw [foldl_lenv Ws l (k + 1) L']
        rfl

theorem leftEnvs_take (c : 𝕜 → 𝕜) : ∀ (a Ws : List (Blk 𝕜)) (L : Blk 𝕜), a.length ≤ Ws.length →
    leftEnvs c a Ws L = leftEnvs c a (Ws.take a.length) L
  | [], Ws, L, _ => by cases Ws <;> simp [leftEnvs]
  | A :: a, [], L, h => by simp at h
  | A :: a, W :: Ws, L, h => by
    simp only [List.length_cons, List.take_succ_cons, leftEnvs, bind, Except.bind]
    cases envLeft c W A A L with
    | error f => rfl
    | ok L' => exact leftEnvs_take c a Ws L' (by simpa using h)

theorem foldr_renv (Ws : List (Blk 𝕜)) (e : Blk 𝕜) : ∀ (l : List (Blk 𝕜)) (k : Nat), k + l.length ≤ Ws.length →
    (l.zipIdx k).foldr (fun p acc => renvBlk Ws p.2 p.1 acc) (.ok e) = rightEnvs star l (Ws.drop k) e
  | [], k, _ => by simp [rightEnvs]
  | A :: l, k, h => by
    simp only [List.length_cons] at h
    rw [List.zipIdx_cons, List.foldr_cons, foldr_renv Ws e l (k + 1) (by omega)]
    have hk : k < Ws.length := by omega
    rw [List.drop_eq_getElem_cons hk]
    show renvBlk Ws k A (rightEnvs star l (Ws.drop (k + 1)) e) = (do
      let r ← rightEnvs star l (Ws.drop (k + 1)) e
      envRight star Ws[k] A r)
    unfold renvBlk
    simp only [List.getElem?_eq_getElem hk, BT.orUb]
    rfl

theorem left_blkR (Ws s : List (Blk 𝕜)) (svd : Blk 𝕜 → Res (Blk 𝕜 × Blk 𝕜 × Blk 𝕜)) (o : Nat) (ho : o ≤ s.length) (hl : Ws.length = s.length) :
    (blkDmrgR Ws svd).left s o = leftEnvs star (s.take o) (Ws.take o) (onesLike [1, 1, 1]) := by
  unfold Dmrg.left blkDmrgR
  have : s.zipIdx.take o = (s.take o).zipIdx 0 := by
    apply List.ext_getElem?
    intro i
    rw [List.getElem?_take, List.getElem?_zipIdx, List.getElem?_zipIdx, List.getElem?_take]
    split <;> simp
  simp only
  rw [this, foldl_lenv, List.drop_zero, leftEnvs_take _ _ _ _ (by simp; omega)]
  congr 2
  simp
  omega

theorem left_blk (Ws s : List (Blk 𝕜)) (svd : Blk 𝕜 → Blk 𝕜 × Blk 𝕜 × Blk 𝕜) (o : Nat) (ho : o ≤ s.length) (hl : Ws.length = s.length) :
    (blkDmrg Ws svd).left s o = leftEnvs star (s.take o) (Ws.take o) (onesLike [1, 1, 1]) := left_blkR Ws s _ o ho hl

theorem right_blkR (Ws s : List (Blk 𝕜)) (svd : Blk 𝕜 → Res (Blk 𝕜 × Blk 𝕜 × Blk 𝕜)) (o : Nat) (hl : Ws.length = s.length) (ho : o ≤ s.length) :
    (blkDmrgR Ws svd).right s o = rightEnvs star (s.drop o) (Ws.drop o) (onesLike [1, 1, 1]) := by
  unfold Dmrg.right blkDmrgR
  have : s.zipIdx.drop o = (s.drop o).zipIdx o := by
    apply List.ext_getElem?
    intro i
    rw [List.getElem?_drop, List.getElem?_zipIdx, List.getElem?_zipIdx, List.getElem?_drop]
    simp
  simp only
  rw [this, foldr_renv _ _ _ _ (by simp; omega)]

theorem right_blk (Ws s : List (Blk 𝕜)) (svd : Blk 𝕜 → Blk 𝕜 × Blk 𝕜 × Blk 𝕜) (o : Nat) (hl : Ws.length = s.length) (ho : o ≤ s.length) :
    (blkDmrg Ws svd).right s o = rightEnvs star (s.drop o) (Ws.drop o) (onesLike [1, 1, 1]) := right_blkR Ws s _ o hl ho

theorem list_pair {α : Type} {s : List α} {o : Nat} {A B : α} (hA : s[o]? = some A) (hB : s[o + 1]? = some B) :
    s = s.take o ++ A :: B :: s.drop (o + 2) ∧ ∀ A' B', (s.set o A').set (o + 1) B' = s.take o ++ A' :: B' :: s.drop (o + 2) := by
  obtain ⟨h1, g1⟩ := List.getElem?_eq_some_iff.1 hA
  obtain ⟨h2, g2⟩ := List.getElem?_eq_some_iff.1 hB
  constructor
  · conv_lhs => rw [← List.take_append_drop o s]
    rw [List.drop_eq_getElem_cons h1, List.drop_eq_getElem_cons h2, g1, g2]
  · intro A' B'
    apply List.ext_getElem?
    intro i
    rcases lt_trichotomy i o with h | h | h
    · rw [List.getElem?_set_ne (by omega), List.getElem?_set_ne (by omega), List.getElem?_append_left (by simp; omega)]
      simp [h]
    · subst h
      rw [List.getElem?_set_ne (by omega), List.getElem?_set_self (by omega), List.getElem?_append_right (by simp)]
      simp [Nat.min_eq_left h1.le]
    · rcases Nat.lt_or_eq_of_le h with h | h
      · rw [List.getElem?_set_ne (by omega), List.getElem?_set_ne (by omega), List.getElem?_append_right (by simp; omega)]
        obtain ⟨e, rfl⟩ : ∃ e, i = o + 2 + e := ⟨i - o - 2, by omega⟩
        simp only [List.length_take, Nat.min_eq_left h1.le]
        rw [show o + 2 + e - o = e + 1 + 1 by omega]
        simp
      · have : i = o + 1 := by omega
        subst this
        rw [List.getElem?_set_self (by simp; omega), List.getElem?_append_right (by simp)]
        simp only [List.length_take, Nat.min_eq_left h1.le]
        rw [show o + 1 - o = 0 + 1 by omega]
        simp

theorem ends_replace {pre post : List (Blk 𝕜)} {A B A' B' : Blk 𝕜} (h0 : A'.dims.getD 0 0 = A.dims.getD 0 0)
    (h2 : B'.dims.getD 2 0 = B.dims.getD 2 0) :
    leftEnd (pre ++ A' :: B' :: post) = leftEnd (pre ++ A :: B :: post) ∧
    rightEnd (pre ++ A' :: B' :: post) = rightEnd (pre ++ A :: B :: post) := by
  constructor
  · cases pre with
    | nil => simp only [leftEnd, List.nil_append, List.head?_cons]; exact h0
    | cons C pre => simp [leftEnd]
  · unfold rightEnd
    rw [List.getLast?_append, List.getLast?_append]
    cases post with
    | nil => simpa using h2
    | cons C post => simp [List.getLast?_cons_cons]

theorem isSymmetric_of {pre post Ws : List (Blk 𝕜)} {ds ds4 : List Nat} {T : Vec 𝕜 ds4 →ₗ[𝕜] Vec 𝕜 ds4} (hH : HermitianOp Ws ds)
    (hE : ∀ θ φ : Blk 𝕜, θ.dims = ds4 → φ.dims = ds4 →
      inner 𝕜 (toV ds4 φ) (T (toV ds4 θ)) = pairSandwich pre θ φ post Ws ds 0 0 0 0 0 0) : T.IsSymmetric := by
  intro x y
  have h1 := hE (ofV ds4 x) (ofV ds4 y) rfl rfl
  have h2 := hE (ofV ds4 y) (ofV ds4 x) rfl rfl
  rw [toV_ofV, toV_ofV] at h1 h2
  rw [h2, ← inner_conj_symm, h1]
  exact (pairSandwich_herm pre post Ws _ _ ds hH).symm

/-- One pair of sites of a closed chain in canonical form: the linear map of the effective Hamiltonian, and what any two sites
with a product `θ` of norm one make of the chain. -/
theorem pair_core (Ws s : List (Blk 𝕜)) (o : Nat)
    (hF : Fit s Ws s) (hc : Closed s) (hcW : Closed Ws) (hH : HermitianOp Ws (phys s)) (ho : o + 1 < s.length)
    (hcan : PairCanonical s o) (hn : normSq s = 1) :
    ∃ A B W1 W2 Le Re H2 ψ n i m j n', ∃ T : Vec 𝕜 [n, i, j, n'] →ₗ[𝕜] Vec 𝕜 [n, i, j, n'],
      s[o]? = some A ∧ s[o + 1]? = some B ∧ Ws[o]? = some W1 ∧ Ws[o + 1]? = some W2 ∧
      leftEnvs star (s.take o) (Ws.take o) (onesLike [1, 1, 1]) = .ok Le ∧
      rightEnvs star (s.drop (o + 2)) (Ws.drop (o + 2)) (onesLike [1, 1, 1]) = .ok Re ∧ twoSite W1 W2 = .ok H2 ∧
      dot1 A B 2 0 = .ok ψ ∧ A.dims = [n, i, m] ∧ B.dims = [m, j, n'] ∧ ψ.dims = [n, i, j, n'] ∧ T.IsSymmetric ∧
      ‖toV [n, i, j, n'] ψ‖ = 1 ∧ RCLike.re (inner 𝕜 (toV [n, i, j, n'] ψ) (T (toV [n, i, j, n'] ψ))) = energy Ws s ∧
      (∀ θ : Blk 𝕜, θ.dims = [n, i, j, n'] → ∃ θ', hamil2site θ H2 Le Re = .ok θ' ∧ θ'.dims = [n, i, j, n'] ∧
        toV [n, i, j, n'] θ' = T (toV [n, i, j, n'] θ)) ∧
      (∀ θ φ : Blk 𝕜, θ.dims = [n, i, j, n'] → φ.dims = [n, i, j, n'] →
        inner 𝕜 (toV [n, i, j, n'] φ) (T (toV [n, i, j, n'] θ)) = pairSandwich (s.take o) θ φ (s.drop (o + 2)) Ws (phys s) 0 0 0 0 0 0) ∧
      (∀ θ : Blk 𝕜, θ.dims = [n, i, j, n'] → ‖toV [n, i, j, n'] θ‖ ^ 2
        = ∑ σ ∈ configs (phys s), ‖pairAmp (s.take o) θ (s.drop (o + 2)) σ 0 0‖ ^ 2) ∧
      ∀ (θ A' B' : Blk 𝕜) (k : Nat) (fwd : Bool), θ.dims = [n, i, j, n'] → ‖toV [n, i, j, n'] θ‖ = 1 → A'.dims = [n, i, k] → B'.dims = [k, j, n'] →
        (∀ x c c' y, x < n → c < i → c' < j → y < n' → θ.f [x, c, c', y] = ∑ m ∈ range k, A'.f [x, c, m] * B'.f [m, c', y]) →
        (fwd = true → LeftOrth A') → (fwd = false → RightOrth B') →
        Fit ((s.set o A').set (o + 1) B') Ws ((s.set o A').set (o + 1) B') ∧ Closed ((s.set o A').set (o + 1) B') ∧
        phys ((s.set o A').set (o + 1) B') = phys s ∧ Canonical ((s.set o A').set (o + 1) B') (if fwd then o + 1 else o) ∧
        normSq ((s.set o A').set (o + 1) B') = 1 ∧
        energy Ws ((s.set o A').set (o + 1) B') = RCLike.re (inner 𝕜 (toV [n, i, j, n'] θ) (T (toV [n, i, j, n'] θ))) := by
  have hWl : Ws.length = s.length := (Fit.lengths hF).1
  obtain ⟨A, gA⟩ : ∃ A, s[o]? = some A := ⟨_, List.getElem?_eq_getElem (by omega)⟩
  obtain ⟨B, gB⟩ : ∃ B, s[o + 1]? = some B := ⟨_, List.getElem?_eq_getElem ho⟩
  obtain ⟨W1, gW1⟩ : ∃ W, Ws[o]? = some W := ⟨_, List.getElem?_eq_getElem (by omega)⟩
  obtain ⟨W2, gW2⟩ : ∃ W, Ws[o + 1]? = some W := ⟨_, List.getElem?_eq_getElem (by omega)⟩
  obtain ⟨hs, hset⟩ := list_pair gA gB
  obtain ⟨hW, _⟩ := list_pair gW1 gW2
  have hpreL : ∀ X ∈ s.take o, LeftOrth X := by
    intro X hX
    obtain ⟨i, hi⟩ := List.mem_iff_getElem?.1 hX
    rw [List.getElem?_take] at hi
    split at hi
    · exact hcan.1 i X hi (by assumption)
    · cases hi
  have hpostR : ∀ X ∈ s.drop (o + 2), RightOrth X := by
    intro X hX
    obtain ⟨i, hi⟩ := List.mem_iff_getElem?.1 hX
    rw [List.getElem?_drop] at hi
    exact hcan.2 _ X hi (by omega)
  have hF' := hF
  rw [hs, hW] at hF'
  have hc' := hc
  rw [hs] at hc'
  have hcW' := hcW
  rw [hW] at hcW'
  obtain ⟨Le, Re, H2, n, i, m, j, n', T, hA, hB, hp, hp0, h1, h2, h3, hT, hE, hN⟩ :=
    pair_setup (s.take o) (s.drop (o + 2)) (Ws.take o) (Ws.drop (o + 2)) A B W1 W2 hF' (by simp; omega) hc' hcW' hpreL hpostR
  rw [← hs, ← hW] at hE
  rw [← hs] at hN
  -- the two-site tensor
  obtain ⟨ψ, hψ, hψd, hψf⟩ : ∃ ψ, dot1 A B 2 0 = .ok ψ ∧ ψ.dims = [n, i, j, n'] ∧
      ∀ x s t y, ψ.f [x, s, t, y] = ∑ k ∈ range m, A.f [x, s, k] * B.f [k, t, y] := by
    refine ⟨_, by simp [dot1, hA, hB]; rfl, ?_, ?_⟩
    · simp
    · intro x s t y; rfl
  have hchain := chain_of_pair (pre := s.take o) (post := s.drop (o + 2)) (Ws := Ws) hA hB hψd (fun x s t y _ _ _ _ => hψf x s t y) hp hp0
  rw [← hs] at hchain
  have normV : ∀ θ : Blk 𝕜, θ.dims = [n, i, j, n'] → ‖toV [n, i, j, n'] θ‖ ^ 2
      = ∑ σ ∈ configs (phys s), ‖pairAmp (s.take o) θ (s.drop (o + 2)) σ 0 0‖ ^ 2 := by
    intro θ hθ
    have hn := hN θ θ hθ hθ
    rw [re_pair_norm, inner_self_eq_norm_sq_to_K] at hn
    exact_mod_cast hn
  have hψn : ‖toV [n, i, j, n'] ψ‖ = 1 := by
    have := normV ψ hψd
    rw [← hchain.1, hn] at this
    exact (pow_eq_one_iff_of_nonneg (norm_nonneg _) (by norm_num)).1 this
  have hψE : RCLike.re (inner 𝕜 (toV [n, i, j, n'] ψ) (T (toV [n, i, j, n'] ψ))) = energy Ws s := by
    rw [hE ψ ψ hψd hψd, hchain.2]
  have hsym : T.IsSymmetric := isSymmetric_of hH hE
  refine ⟨A, B, W1, W2, Le, Re, H2, ψ, n, i, m, j, n', T, gA, gB, gW1, gW2, h1, h2, h3, hψ, hA, hB, hψd, hsym, hψn, hψE, hT, hE, normV, ?_⟩
  · intro θ A' B' k fwd t2 t3 q2 q3 q4 q5 q6
    rw [hset]
    have hphys : phys (s.take o ++ A' :: B' :: s.drop (o + 2)) = phys s := by
      conv_rhs => rw [hs]
      simp [phys, hA, hB, q2, q3]
    have hends := ends_replace (pre := s.take o) (post := s.drop (o + 2)) (A := A) (B := B) (A' := A') (B' := B')
      (by rw [hA, q2]; rfl) (by rw [hB, q3]; rfl)
    rw [← hs] at hends
    have hlk := linked_replace gA gB hF.ket hA hB q2 q3
    rw [hset] at hlk
    have hch' := chain_of_pair (pre := s.take o) (post := s.drop (o + 2)) (Ws := Ws) q2 q3 t2 q4 hp hp0
    rw [hphys] at hch'
    refine ⟨⟨hlk, hF.op, hlk, hphys.trans hF.cols, hphys.trans hF.rows⟩, ⟨hends.1.trans hc.1, hends.2.trans hc.2⟩, hphys, ?_, ?_, ?_⟩
    · have hat : ∀ x : Nat, (s.take o ++ A' :: B' :: s.drop (o + 2))[x]? = ((s.set o A').set (o + 1) B')[x]? := by
        intro x; rw [hset]
      constructor
      · intro x X hX hx
        rw [hat] at hX
        by_cases hxo : x < o
        · rw [List.getElem?_set_ne (by omega), List.getElem?_set_ne (by omega)] at hX
          exact hcan.1 x X hX hxo
        · cases fwd with
          | true =>
            have : x = o := by simp at hx; omega
            subst this
            rw [List.getElem?_set_ne (by omega), List.getElem?_set_self (by omega)] at hX
            cases hX
            exact q5 rfl
          | false => simp at hx; omega
      · intro x X hX hx
        rw [hat] at hX
        by_cases hxo : o + 1 < x
        · rw [List.getElem?_set_ne (by omega), List.getElem?_set_ne (by omega)] at hX
          exact hcan.2 x X hX hxo
        · cases fwd with
          | false =>
            have : x = o + 1 := by simp at hx; omega
            subst this
            rw [List.getElem?_set_self (by simp; omega)] at hX
            cases hX
            exact q6 rfl
          | true => simp at hx; omega
    · rw [hch'.1, ← normV θ t2, t3, one_pow]
    · rw [hch'.2, ← hE θ θ t2 t2]

/-- The update of a pair, up to the decomposition of the new two-site tensor `θ`: its energy `E`, and what any two sites with a
product of norm one make of the chain. -/
theorem update_full (Ws s : List (Blk 𝕜)) (o : Nat)
    (hF : Fit s Ws s) (hc : Closed s) (hcW : Closed Ws) (hH : HermitianOp Ws (phys s)) (ho : o + 1 < s.length)
    (hcan : PairCanonical s o) (hn : normSq s = 1) (hreg : Regular Ws s o) :
    ∃ A B W1 W2 Le Re H2 ψ E θ n i m j n', ∃ T : Vec 𝕜 [n, i, j, n'] →ₗ[𝕜] Vec 𝕜 [n, i, j, n'], s[o]? = some A ∧ s[o + 1]? = some B ∧ Ws[o]? = some W1 ∧ Ws[o + 1]? = some W2 ∧
      leftEnvs star (s.take o) (Ws.take o) (onesLike [1, 1, 1]) = .ok Le ∧
      rightEnvs star (s.drop (o + 2)) (Ws.drop (o + 2)) (onesLike [1, 1, 1]) = .ok Re ∧ twoSite W1 W2 = .ok H2 ∧
      dot1 A B 2 0 = .ok ψ ∧ twoSitesUpdateBlk ψ H2 Le Re = .ok (E, θ) ∧ A.dims = [n, i, m] ∧ B.dims = [m, j, n'] ∧
      θ.dims = [n, i, j, n'] ∧ ‖toV [n, i, j, n'] θ‖ = 1 ∧ E ≤ energy Ws s ∧
      ((∃ ψ ψ', PairTensors Ws s o ψ ψ' ∧ Improvable ψ ψ' (energy Ws s)) → E < energy Ws s) ∧
      (∀ ψ ψ', PairTensors Ws s o ψ ψ' → ∀ (x y : 𝕜) (θ : Blk 𝕜), θ.dims = ψ.dims →
        (∀ o ∈ configs ψ.dims, θ.f o = x * ψ.f o + y * ψ'.f o) →
        E * ∑ σ ∈ configs (phys s), ‖pairAmp (s.take o) θ (s.drop (o + 2)) σ 0 0‖ ^ 2
          ≤ RCLike.re (pairSandwich (s.take o) θ θ (s.drop (o + 2)) Ws (phys s) 0 0 0 0 0 0)) ∧
      T.IsSymmetric ∧ E = RCLike.re (inner 𝕜 (toV [n, i, j, n'] θ) (T (toV [n, i, j, n'] θ))) ∧
      (∀ θ φ : Blk 𝕜, θ.dims = [n, i, j, n'] → φ.dims = [n, i, j, n'] →
        inner 𝕜 (toV [n, i, j, n'] φ) (T (toV [n, i, j, n'] θ)) = pairSandwich (s.take o) θ φ (s.drop (o + 2)) Ws (phys s) 0 0 0 0 0 0) ∧
      (∀ θ : Blk 𝕜, θ.dims = [n, i, j, n'] → ‖toV [n, i, j, n'] θ‖ ^ 2
        = ∑ σ ∈ configs (phys s), ‖pairAmp (s.take o) θ (s.drop (o + 2)) σ 0 0‖ ^ 2) ∧
      ∀ (θ A' B' : Blk 𝕜) (k : Nat) (fwd : Bool), θ.dims = [n, i, j, n'] → ‖toV [n, i, j, n'] θ‖ = 1 → A'.dims = [n, i, k] → B'.dims = [k, j, n'] →
        (∀ x c c' y, x < n → c < i → c' < j → y < n' → θ.f [x, c, c', y] = ∑ m ∈ range k, A'.f [x, c, m] * B'.f [m, c', y]) →
        (fwd = true → LeftOrth A') → (fwd = false → RightOrth B') →
        Fit ((s.set o A').set (o + 1) B') Ws ((s.set o A').set (o + 1) B') ∧ Closed ((s.set o A').set (o + 1) B') ∧
        phys ((s.set o A').set (o + 1) B') = phys s ∧ Canonical ((s.set o A').set (o + 1) B') (if fwd then o + 1 else o) ∧
        normSq ((s.set o A').set (o + 1) B') = 1 ∧
        energy Ws ((s.set o A').set (o + 1) B') = RCLike.re (inner 𝕜 (toV [n, i, j, n'] θ) (T (toV [n, i, j, n'] θ))) := by
  obtain ⟨A, B, W1, W2, Le, Re, H2, ψ, n, i, m, j, n', T, gA, gB, gW1, gW2, h1, h2, h3, hψ, hA, hB, hψd, hsym, hψn, hψE, hT, hE, normV, hnew⟩ :=
    pair_core Ws s o hF hc hcW hH ho hcan hn
  obtain ⟨ψ', k1, k2, k3⟩ := hT ψ hψd
  have hpt : PairTensors Ws s o ψ ψ' := ⟨A, B, W1, W2, Le, Re, H2, gA, gB, gW1, gW2, hψ, h1, h2, h3, k1⟩
  have hres : ‖T (toV [n, i, j, n'] ψ) - ((energy Ws s : ℝ) : 𝕜) • toV [n, i, j, n'] ψ‖ ^ 2
      = ∑ o ∈ configs ψ.dims, ‖ψ'.f o - (energy Ws s : 𝕜) * ψ.f o‖ ^ 2 := by
    rw [← k3, hψd]
    exact norm_toV [n, i, j, n'] (⟨[n, i, j, n'], fun o => ψ'.f o - (energy Ws s : 𝕜) * ψ.f o⟩ : Blk 𝕜)
  have himp : Improvable ψ ψ' (energy Ws s) → 1e-15 ≤ ‖T (toV [n, i, j, n'] ψ)
      - ((RCLike.re (inner 𝕜 (toV [n, i, j, n'] ψ) (T (toV [n, i, j, n'] ψ))) : ℝ) : 𝕜) • toV [n, i, j, n'] ψ‖ := by
    intro h
    rw [hψE]
    unfold Improvable at h
    rw [← hres] at h
    exact le_of_sq_le_sq (by exact h) (norm_nonneg _)
  -- the eigensolver
  obtain ⟨E, v, u1, u2, u3, u4, u5, u6⟩ : ∃ E v, twoSitesUpdate T (toV [n, i, j, n'] ψ) = .ok (E, v) ∧ ‖v‖ = 1 ∧
      E = RCLike.re (inner 𝕜 v (T v)) ∧ E ≤ energy Ws s ∧ (Improvable ψ ψ' (energy Ws s) → E < energy Ws s) ∧
      ∀ x y : 𝕜, E * ‖x • toV [n, i, j, n'] ψ + y • T (toV [n, i, j, n'] ψ)‖ ^ 2
        ≤ RCLike.re (inner 𝕜 (x • toV [n, i, j, n'] ψ + y • T (toV [n, i, j, n'] ψ))
            (T (x • toV [n, i, j, n'] ψ + y • T (toV [n, i, j, n'] ψ)))) := by
    by_cases hi : Improvable ψ ψ' (energy Ws s)
    · obtain ⟨E, v, a1, a2, a3, a4, a5⟩ := C54_update_partial T hsym _ hψn (himp hi)
      rw [hψE] at a4
      exact ⟨E, v, a1, a2, a3, a4.le, fun _ => a4, a5⟩
    · rcases hreg ψ ψ' hpt with h | ⟨h, h'⟩
      · exact absurd h hi
      · have he : T (toV [n, i, j, n'] ψ) = ((energy Ws s : ℝ) : 𝕜) • toV [n, i, j, n'] ψ := by
          rw [← k3]
          ext o
          exact h' o.1 (by rw [hψd]; exact o.2)
        refine ⟨energy Ws s, _, C54_eigenvector_partial T _ hψn _ h he, hψn, hψE.symm, le_refl _, fun h => absurd h hi, ?_⟩
        intro x y
        rw [he, smul_smul, ← add_smul, map_smul, he, inner_smul_left, inner_smul_right, inner_smul_right, inner_self_eq_norm_sq_to_K,
          hψn, norm_smul, hψn]
        generalize x + y * ((energy Ws s : ℝ) : 𝕜) = z
        have : starRingEnd 𝕜 z * (z * (((energy Ws s : ℝ) : 𝕜) * ((1 : ℝ) : 𝕜) ^ 2)) = ((energy Ws s * ‖z‖ ^ 2 : ℝ) : 𝕜) := by
          rw [← mul_assoc, RCLike.conj_mul]; push_cast; ring
        rw [this, RCLike.ofReal_re]
        simp
  obtain ⟨θ, t1, t2, t3⟩ := twoSitesUpdateBlk_ok hT hψd u1
  refine ⟨A, B, W1, W2, Le, Re, H2, ψ, E, θ, n, i, m, j, n', T, gA, gB, gW1, gW2, h1, h2, h3, hψ, t1, hA, hB, t2, by rw [t3]; exact u2, u4,
    ?_, ?_, hsym, by rw [t3]; exact u3, hE, normV, hnew⟩
  · rintro ⟨φ, φ', ⟨A1, B1, W3, W4, Le1, Re1, H3, b1, b2, b3, b4, b5, b6, b7, b8, b9⟩, hi⟩
    rw [gA] at b1; cases b1
    rw [gB] at b2; cases b2
    rw [gW1] at b3; cases b3
    rw [gW2] at b4; cases b4
    rw [hψ] at b5; cases b5
    rw [h1] at b6; cases b6
    rw [h2] at b7; cases b7
    rw [h3] at b8; cases b8
    rw [k1] at b9; cases b9
    exact u5 hi
  · rintro φ φ' ⟨A1, B1, W3, W4, Le1, Re1, H3, b1, b2, b3, b4, b5, b6, b7, b8, b9⟩ x y ξ hξd hξ
    rw [gA] at b1; cases b1
    rw [gB] at b2; cases b2
    rw [gW1] at b3; cases b3
    rw [gW2] at b4; cases b4
    rw [hψ] at b5; cases b5
    rw [h1] at b6; cases b6
    rw [h2] at b7; cases b7
    rw [h3] at b8; cases b8
    rw [k1] at b9; cases b9
    have hV : toV [n, i, j, n'] ξ = x • toV [n, i, j, n'] ψ + y • T (toV [n, i, j, n'] ψ) := by
      rw [← k3]
      ext o
      exact hξ o.1 (by rw [hψd]; exact o.2)
    have := u6 x y
    rw [← hV] at this
    rw [hE ξ ξ (hξd.trans hψd) (hξd.trans hψd), normV ξ (hξd.trans hψd)] at this
    exact this

/-- The update of a pair, up to the decomposition of the new two-site tensor `θ`: its energy `E`, and what any two sites whose
product is `θ` make of the chain. -/
theorem update_core (Ws s : List (Blk 𝕜)) (o : Nat)
    (hF : Fit s Ws s) (hc : Closed s) (hcW : Closed Ws) (hH : HermitianOp Ws (phys s)) (ho : o + 1 < s.length)
    (hcan : PairCanonical s o) (hn : normSq s = 1) (hreg : Regular Ws s o) :
    ∃ A B W1 W2 Le Re H2 ψ E θ n i m j n', s[o]? = some A ∧ s[o + 1]? = some B ∧ Ws[o]? = some W1 ∧ Ws[o + 1]? = some W2 ∧
      leftEnvs star (s.take o) (Ws.take o) (onesLike [1, 1, 1]) = .ok Le ∧
      rightEnvs star (s.drop (o + 2)) (Ws.drop (o + 2)) (onesLike [1, 1, 1]) = .ok Re ∧ twoSite W1 W2 = .ok H2 ∧
      dot1 A B 2 0 = .ok ψ ∧ twoSitesUpdateBlk ψ H2 Le Re = .ok (E, θ) ∧ A.dims = [n, i, m] ∧ B.dims = [m, j, n'] ∧
      θ.dims = [n, i, j, n'] ∧ ‖toV [n, i, j, n'] θ‖ = 1 ∧ E ≤ energy Ws s ∧
      ((∃ ψ ψ', PairTensors Ws s o ψ ψ' ∧ Improvable ψ ψ' (energy Ws s)) → E < energy Ws s) ∧
      (∀ ψ ψ', PairTensors Ws s o ψ ψ' → ∀ (x y : 𝕜) (θ : Blk 𝕜), θ.dims = ψ.dims →
        (∀ o ∈ configs ψ.dims, θ.f o = x * ψ.f o + y * ψ'.f o) →
        E * ∑ σ ∈ configs (phys s), ‖pairAmp (s.take o) θ (s.drop (o + 2)) σ 0 0‖ ^ 2
          ≤ RCLike.re (pairSandwich (s.take o) θ θ (s.drop (o + 2)) Ws (phys s) 0 0 0 0 0 0)) ∧
      ∀ (A' B' : Blk 𝕜) (k : Nat) (fwd : Bool), A'.dims = [n, i, k] → B'.dims = [k, j, n'] →
        (∀ x c c' y, x < n → c < i → c' < j → y < n' → θ.f [x, c, c', y] = ∑ m ∈ range k, A'.f [x, c, m] * B'.f [m, c', y]) →
        (fwd = true → LeftOrth A') → (fwd = false → RightOrth B') →
        Fit ((s.set o A').set (o + 1) B') Ws ((s.set o A').set (o + 1) B') ∧ Closed ((s.set o A').set (o + 1) B') ∧
        phys ((s.set o A').set (o + 1) B') = phys s ∧ Canonical ((s.set o A').set (o + 1) B') (if fwd then o + 1 else o) ∧
        normSq ((s.set o A').set (o + 1) B') = 1 ∧ E = energy Ws ((s.set o A').set (o + 1) B') := by
  obtain ⟨A, B, W1, W2, Le, Re, H2, ψ, E, θ, n, i, m, j, n', T, gA, gB, gW1, gW2, h1, h2, h3, hψ, t1, hA, hB, t2, t3, u4, u5, u6, _, u7, _, _, hnew⟩ :=
    update_full Ws s o hF hc hcW hH ho hcan hn hreg
  refine ⟨A, B, W1, W2, Le, Re, H2, ψ, E, θ, n, i, m, j, n', gA, gB, gW1, gW2, h1, h2, h3, hψ, t1, hA, hB, t2, t3, u4, u5, u6, ?_⟩
  intro A' B' k fwd q2 q3 q4 q5 q6
  obtain ⟨x1, x2, x3, x4, x5, x6⟩ := hnew θ A' B' k fwd t2 t3 q2 q3 q4 q5 q6
  exact ⟨x1, x2, x3, x4, x5, by rw [x6]; exact u7⟩

/-- **C73** (partial: the residual of the two-site tensor must not be between zero and 1e-15, nor zero at an energy of zero or
more, see `C54_eigenvector_fails`).  One update of the dense DMRG, at any pair of sites of any chain with ends of size one in
canonical form around the pair, for any hermitian Hamiltonian given as an MPO, with an SVD that does not truncate:
it succeeds; the new state has norm one; the energy returned is the expectation value of the whole Hamiltonian in the
whole new state; it is not above the previous one, and below it unless the two-site tensor was an eigenvector; and
the orthogonality center is where the sweep goes on. -/
theorem C73_update_partial (Ws s : List (Blk 𝕜)) (svd : Blk 𝕜 → Blk 𝕜 × Blk 𝕜 × Blk 𝕜) (o : Nat) (fwd : Bool)
    (hsvd : ∀ X l s t r, X.dims = [l, s, t, r] → ∃ k, SvdPair X (svd X).1 (svd X).2.1 (svd X).2.2 l s t r k)
    (hF : Fit s Ws s) (hc : Closed s) (hcW : Closed Ws) (hH : HermitianOp Ws (phys s)) (ho : o + 1 < s.length)
    (hcan : PairCanonical s o) (hn : normSq s = 1) (hreg : Regular Ws s o) :
    ∃ E s', (blkDmrg Ws svd).fresh o fwd s = .ok (E, s') ∧ Fit s' Ws s' ∧ Closed s' ∧ phys s' = phys s ∧
      Canonical s' (if fwd then o + 1 else o) ∧ normSq s' = 1 ∧ E = energy Ws s' ∧ E ≤ energy Ws s ∧
      ((∃ ψ ψ', PairTensors Ws s o ψ ψ' ∧ Improvable ψ ψ' (energy Ws s)) → E < energy Ws s) ∧
      (∀ ψ ψ', PairTensors Ws s o ψ ψ' → ∀ (x y : 𝕜) (θ : Blk 𝕜), θ.dims = ψ.dims →
        (∀ o ∈ configs ψ.dims, θ.f o = x * ψ.f o + y * ψ'.f o) →
        E * ∑ σ ∈ configs (phys s), ‖pairAmp (s.take o) θ (s.drop (o + 2)) σ 0 0‖ ^ 2
          ≤ RCLike.re (pairSandwich (s.take o) θ θ (s.drop (o + 2)) Ws (phys s) 0 0 0 0 0 0)) := by
  have hWl : Ws.length = s.length := (Fit.lengths hF).1
  have hlb := left_blk Ws s svd o (by omega) hWl
  have hrb := right_blk Ws s svd (o + 2) hWl (by omega)
  obtain ⟨A, B, W1, W2, Le, Re, H2, ψ, E, θ, n, i, m, j, n', gA, gB, gW1, gW2, h1, h2, h3, hψ, t1, hA, hB, t2, t3, u4, u5, u6, hnew⟩ :=
    update_core Ws s o hF hc hcW hH ho hcan hn hreg
  obtain ⟨k, hk⟩ := hsvd θ n i j n' t2
  obtain ⟨A', B', q1, q2, q3, q4, q5, q6⟩ := new_sites hk t3 fwd
  have hupd : blkUpd Ws svd fwd o ((blkDmrg Ws svd).left s o) ((blkDmrg Ws svd).right s (o + 2)) A B = .ok (E, A', B') := by
    unfold blkUpd blkUpdR
    rw [hlb, hrb, h1, h2, hψ, gW1, gW2]
    simp only [bind, Except.bind, BT.orUb, h3, t1]
    cases fwd with
    | true =>
      simp only [if_true, bind, Except.bind] at q1 ⊢
      cases hm : mulLast (svd θ).2.2 (unitSum (svd θ).2.1) with
      | error f => rw [hm] at q1; cases q1
      | ok vd =>
        rw [hm] at q1
        simp only at q1 ⊢
        cases hpm : BT.permBlk [2, 0, 1] (conjBlk star vd) with
        | error f => rw [hpm] at q1; cases q1
        | ok nx =>
          rw [hpm] at q1
          cases q1
          rfl
    | false =>
      simp only [Bool.false_eq_true, if_false, bind, Except.bind] at q1 ⊢
      cases hm : mulLast (svd θ).1 (unitSum (svd θ).2.1) with
      | error f => rw [hm] at q1; cases q1
      | ok ud =>
        rw [hm] at q1
        simp only at q1 ⊢
        cases hpm : BT.permBlk [2, 0, 1] (conjBlk star (svd θ).2.2) with
        | error f => rw [hpm] at q1; cases q1
        | ok nx =>
          rw [hpm] at q1
          cases q1
          rfl
  have hfresh : (blkDmrg Ws svd).fresh o fwd s = .ok (E, (s.set o A').set (o + 1) B') := by
    unfold Dmrg.fresh
    rw [gA, gB]
    simp only
    show Except.map _ (blkUpd Ws svd fwd o _ _ A B) = _
    rw [hupd]
    rfl
  obtain ⟨w1, w2, w3, w4, w5, w6⟩ := hnew A' B' k fwd q2 q3 q4 q5 q6
  exact ⟨E, _, hfresh, w1, w2, w3, w4, w5, w6, u4, u5, u6⟩

/-- **C73.** The energy of a state of norm one is never below the spectrum of the Hamiltonian. -/
theorem C73_bound (Ws s : List (Blk 𝕜)) (lo : ℝ) (hlo : BoundedBelow Ws (phys s) lo) (hn : normSq s = 1) : lo ≤ energy Ws s := by
  have := hlo fun σ => amp s σ 0 0
  unfold normSq at hn
  rw [hn, mul_one] at this
  exact this

end DM
end QuantiT
