import Verif.Lemmas.ColdCut
import Verif.Lemmas.ColdStart
import Verif.Props.BlockSector
/-
Updates of the block DMRG on chains that are neither normalised nor in canonical form.
-/
namespace QuantiT
namespace DM
open Finset Spec MP
variable {𝕜 : Type} [RCLike 𝕜]

/-- Sites before `c` have orthonormal or zero columns, and the next site is zero where one of those is. -/
structure LeftPart (s : List (Blk 𝕜)) (c : Nat) : Prop where
  left : ∀ (i : Nat) A, s[i]? = some A → i < c → LeftSemi A
  skip : ∀ (i : Nat) A B, s[i]? = some A → s[i + 1]? = some B → i < c → ∀ k, k < A.dims.getD 2 0 → ZeroCol A k → ZeroRow B k

theorem LeftPart.mono {s : List (Blk 𝕜)} {c c' : Nat} (h : LeftPart s c) (hc : c' ≤ c) : LeftPart s c' :=
  ⟨fun i A h1 h2 => h.left i A h1 (by omega), fun i A B h1 h2 h3 => h.skip i A B h1 h2 (by omega)⟩

/-- At the last pair nothing is asked of the right part. -/
theorem LeftPart.pair {s : List (Blk 𝕜)} {o : Nat} (h : LeftPart s o) (ho : o + 2 = s.length) : PairSemi s o := by
  refine ⟨h.left, fun i A h1 h2 => ?_, h.skip, fun i A B h1 h2 h3 => ?_⟩
  · have := (List.getElem?_eq_some_iff.1 h1).1
    omega
  · have := (List.getElem?_eq_some_iff.1 h2).1
    omega

/-- The two-site tensor the eigensolver returns is zero at the unused elements of the bond to the left. -/
theorem found_left (Ws s : List (Blk 𝕜)) (o : Nat) (hF : Fit s Ws s) (hc : Closed s) (hcW : Closed Ws) (ho : o + 1 < s.length) (hL : LeftPart s o)
    {A B W1 W2 Le Re H2 ψ θ : Blk 𝕜} {E : ℝ} {n i m j n' : Nat} (gA : s[o]? = some A) (gB : s[o + 1]? = some B) (gW1 : Ws[o]? = some W1)
    (gW2 : Ws[o + 1]? = some W2) (hLe : leftEnvs star (s.take o) (Ws.take o) (onesLike [1, 1, 1]) = .ok Le)
    (hRe : rightEnvs star (s.drop (o + 2)) (Ws.drop (o + 2)) (onesLike [1, 1, 1]) = .ok Re) (hH2 : twoSite W1 W2 = .ok H2)
    (hψ : dot1 A B 2 0 = .ok ψ) (hA : A.dims = [n, i, m]) (hB : B.dims = [m, j, n']) (hθ : twoSitesUpdateBlk ψ H2 Le Re = .ok (E, θ)) :
    ∀ x, x < n → ZeroLast (s.take o) x → ∀ y y' z, y < i → y' < j → z < n' → θ.f [x, y, y', z] = 0 := by
  have hWl : Ws.length = s.length := (Fit.lengths hF).1
  obtain ⟨hs, hset⟩ := list_pair gA gB
  obtain ⟨hW, _⟩ := list_pair gW1 gW2
  have hF' := hF
  rw [hs, hW] at hF'
  have hc' := hc
  rw [hs] at hc'
  have hcW' := hcW
  rw [hW] at hcW'
  obtain ⟨Le', Re', H2', n1, i1, m1, j1, n1', T, hA', hB', hp, hp0, f1, f2, h1, h2, h3, hT, hE⟩ :=
    pair_setup0 (s.take o) (s.drop (o + 2)) (Ws.take o) (Ws.drop (o + 2)) A B W1 W2 hF' (by simp; omega) hc' hcW'
  rw [hA] at hA'
  rw [hB] at hB'
  cases hA'; cases hB'
  rw [hLe] at h1; cases h1
  rw [hRe] at h2; cases h2
  rw [hH2] at h3; cases h3
  have hph : phys s = phys (s.take o) ++ i :: j :: phys (s.drop (o + 2)) := by
    conv_lhs => rw [hs]
    simp [phys, hA, hB]
  rw [← hs, ← hW] at hE
  obtain ⟨hψd, hψf⟩ : ψ.dims = [n, i, j, n'] ∧ ∀ x s t y, ψ.f [x, s, t, y] = ∑ k ∈ range m, A.f [x, s, k] * B.f [k, t, y] := by
    simp [dot1, hA, hB] at hψ
    constructor
    · rw [← hψ]
    · intro x s t y
      rw [← hψ]
      simp
  obtain ⟨ψ', k1, k2, k3⟩ := hT ψ hψd
  have hsup := image_supported f1 f2 hph hE ψ ψ' hψd k2 k3
  obtain ⟨E', v, u1, -⟩ := lanczos_nonzero T (toV [n, i, j, n'] ψ)
  obtain ⟨θ', t1, t2, t3⟩ := twoSitesUpdateBlk_ok hT hψd u1
  rw [hθ] at t1
  cases t1
  obtain ⟨a, b, hab⟩ := update_span u1
  rw [← t3, ← k3] at hab
  intro x hx hz y y' z hy hy' hz'
  have hq : [x, y, y', z] ∈ configs [n, i, j, n'] := mem_configs.2 (.cons hx (.cons hy (.cons hy' (.cons hz' .nil))))
  have e : θ.f [x, y, y', z] = a * ψ.f [x, y, y', z] + b * ψ'.f [x, y, y', z] :=
    congrArg (fun w : Vec 𝕜 [n, i, j, n'] => w ⟨[x, y, y', z], hq⟩) hab
  have e1 : ψ'.f [x, y, y', z] = 0 := hsup x y y' z (by rw [k2]; exact hq) (.inl hz)
  have e2 : ψ.f [x, y, y', z] = 0 := by
    rw [hψf]
    obtain ⟨X, hX, hzc⟩ := hz
    have ho0 : o ≠ 0 := by rintro rfl; simp at hX
    obtain ⟨p, rfl⟩ : ∃ p, o = p + 1 := ⟨o - 1, by omega⟩
    have hX' : s[p]? = some X := by
      rw [List.getLast?_eq_getElem?, List.length_take, Nat.min_eq_left (by omega), List.getElem?_take] at hX
      simpa using hX
    have h2 := hF.ket.2 p X.dims A.dims (by simp [hX']) (by simp [gA])
    have h3 : X.dims.getD 2 0 = n := by
      rw [List.getD_eq_getElem?_getD, h2, hA]; rfl
    have := hL.skip p X A hX' gA (by omega) x (by omega) hzc
    refine sum_eq_zero fun k hk => ?_
    rw [this y k (by rw [hA]; exact hy) (by rw [hA]; exact mem_range.1 hk), zero_mul]
  rw [e, e1, e2]; simp

/-- The chain with the new sites keeps the left part. -/
theorem leftPart_replace {s : List (Blk 𝕜)} {o : Nat} (hL : LeftPart s o) (hlk : Linked 3 (s.map Blk.dims)) {A B A' B' : Blk 𝕜} {n i m k : Nat}
    (gA : s[o]? = some A) (gB : s[o + 1]? = some B) (hA : A.dims = [n, i, m])
    (hA' : A'.dims = [n, i, k]) (fwd : Bool)
    (hl : fwd = true → LeftSemi A' ∧ ∀ x, x < k → ZeroCol A' x → ZeroRow B' x)
    (dA : ∀ x, x < n → ZeroLast (s.take o) x → ZeroRow A' x) :
    LeftPart (withPair s o A' B') (if fwd then o + 1 else o) := by
  have l1 := (List.getElem?_eq_some_iff.1 gA).1
  have l2 := (List.getElem?_eq_some_iff.1 gB).1
  have e0 : ∀ x, x ≠ o → x ≠ o + 1 → (withPair s o A' B')[x]? = s[x]? := by
    intro x h1 h2
    unfold withPair
    rw [List.getElem?_set_ne (by omega), List.getElem?_set_ne (by omega)]
  have e1 : (withPair s o A' B')[o]? = some A' := by
    unfold withPair
    rw [List.getElem?_set_ne (by omega), List.getElem?_set_self (by omega)]
  have e2 : (withPair s o A' B')[o + 1]? = some B' := by
    unfold withPair
    rw [List.getElem?_set_self (by simp; omega)]
  have hlast : ∀ x X, s[x]? = some X → x + 1 = o → ∀ k, k < X.dims.getD 2 0 → ZeroCol X k → ZeroRow A' k := by
    intro x X hX hx k hk hz
    subst hx
    have h2 := hlk.2 x X.dims A.dims (by simp [hX]) (by simp [gA])
    have h3 : X.dims.getD 2 0 = n := by
      rw [List.getD_eq_getElem?_getD, h2, hA]; rfl
    refine dA k (by omega) ⟨X, ?_, hz⟩
    rw [List.getLast?_eq_getElem?, List.length_take, Nat.min_eq_left (by omega), List.getElem?_take]
    simpa using hX
  have hcase : ∀ x, x < (if fwd then o + 1 else o) → x < o ∨ (fwd = true ∧ x = o) := by
    intro x hx
    cases fwd
    · simp at hx; exact .inl hx
    · simp at hx
      by_cases h : x < o
      · exact .inl h
      · exact .inr ⟨rfl, by omega⟩
  constructor
  · intro x X hX hx
    rcases hcase x hx with h | ⟨h, rfl⟩
    · rw [e0 x (by omega) (by omega)] at hX
      exact hL.left x X hX h
    · rw [e1] at hX
      cases hX
      exact (hl h).1
  · intro x X Y hX hY hx
    rcases hcase x hx with h | ⟨h, rfl⟩
    · rw [e0 x (by omega) (by omega)] at hX
      by_cases hxo : x + 1 = o
      · rw [hxo, e1] at hY
        cases hY
        exact hlast x X hX hxo
      · rw [e0 (x + 1) (by omega) (by omega)] at hY
        exact hL.skip x X Y hX hY h
    · rw [e1] at hX
      rw [e2] at hY
      cases hX; cases hY
      rw [hA']
      exact (hl h).2

/-- At the last pair the norm of the chain is that of the two-site tensor. -/
theorem last_norm {Ws s : List (Blk 𝕜)} {o : Nat} (hF : Fit s Ws s) (hc : Closed s) (hcan : PairSemi s o)
    {A B A' B' φ : Blk 𝕜} {n i m j n' k : Nat} (gA : s[o]? = some A) (gB : s[o + 1]? = some B) (hA : A.dims = [n, i, m]) (hB : B.dims = [m, j, n'])
    (hφ : φ.dims = [n, i, j, n']) (hA' : A'.dims = [n, i, k]) (hB' : B'.dims = [k, j, n'])
    (hf : ∀ x c c' y, x < n → c < i → c' < j → y < n' → φ.f [x, c, c', y] = ∑ m ∈ range k, A'.f [x, c, m] * B'.f [m, c', y])
    (hS : Supported (s.take o) (s.drop (o + 2)) φ) (hφn : ‖toV [n, i, j, n'] φ‖ = 1) :
    phys (withPair s o A' B') = phys s ∧ normSq (withPair s o A' B') = 1 := by
  obtain ⟨hs, hset⟩ := list_pair gA gB
  obtain ⟨hpL, hpS⟩ := pairSemi_pre hcan
  obtain ⟨hqR, hqS⟩ := pairSemi_post hcan
  have hc' := hc
  rw [hs] at hc'
  have hk' := hF.ket
  rw [hs] at hk'
  obtain ⟨n1, i1, m1, j1, n1', hA1, hB1, hp, f1, f2⟩ := linked_split hk'
  rw [hA] at hA1; cases hA1
  rw [hB] at hB1; cases hB1
  rw [hc'.1] at f1
  rw [hc'.2] at f2
  have hp0 : s.take o = [] → 0 < n := by
    intro h
    have := hc'.1
    rw [h] at this
    simp [leftEnd, hA] at this
    omega
  have hph : phys s = phys (s.take o) ++ i :: j :: phys (s.drop (o + 2)) := by
    conv_lhs => rw [hs]
    simp [phys, hA, hB]
  have hphys : phys (withPair s o A' B') = phys s := by
    unfold withPair
    rw [hset]
    conv_rhs => rw [hs]
    simp [phys, hA, hB, hA', hB']
  refine ⟨hphys, ?_⟩
  have hiso := pair_isometry_semi (s.take o) (s.drop (o + 2)) φ φ n i j n' 1 1 hφ hφ f1 f2 hpL hqR hpS hqS hS
  rw [← hph] at hiso
  have h1 : ∑ o ∈ configs φ.dims, φ.f o * star (φ.f o) = 1 := by
    rw [hφ, ← inner_toV, inner_self_eq_norm_sq_to_K, hφn]; simp
  rw [h1] at hiso
  simp only [range_one, sum_singleton] at hiso
  rw [re_pair_norm] at hiso
  have h2 : ∑ σ ∈ configs (phys s), ‖pairAmp (s.take o) φ (s.drop (o + 2)) σ 0 0‖ ^ 2 = 1 := by exact_mod_cast hiso
  unfold normSq
  rw [hphys, ← h2]
  refine sum_congr rfl fun σ hσ => ?_
  have hset' : withPair s o A' B' = s.take o ++ A' :: B' :: s.drop (o + 2) := hset A' B'
  rw [hset'] at hphys ⊢
  rw [← pairAmp_prod (s.take o) (s.drop (o + 2)) A' B' φ n i k j n' hA' hB' hφ hf hp σ (by rw [hphys]; exact hσ) 0 0 hp0]

end DM

namespace BN
open Spec BT MP Finset
variable {G 𝕜 : Type} [RCLike 𝕜]

/-- One update of the block DMRG at any pair of any closed block chain: no norm is asked for, and no canonical form of the sites right of the pair. -/
theorem cold_updateB [AddCommGroup G] [LinearOrder G] (late : Bool) (Ws s0 s : List (BT G 𝕜))
    {fac : Blk 𝕜 → Blk 𝕜 × Blk 𝕜 × Blk 𝕜} (hfac : DenseSvd fac) (eps cutoff : ℝ) (he0 : 0 < eps) (he1 : eps ≤ 1 / 2) (hcut : 0 ≤ cutoff)
    (minB maxB : Nat) (hmin : 1 ≤ minB) (o : Nat) (fwd : Bool) (hF : BlockFit s Ws s) (h0 : StartChain s0 s) (hpW : AllPositive Ws)
    (hc : Closed (s.map denseOf)) (hcW : Closed (Ws.map denseOf))
    (hl : late = false ∨ chargeAt (leftDim Ws) 0 = 0 ∧ chargeAt (rightDim Ws) 0 = 0) (hr : Neutral Ws) (ho : o + 1 < s.length)
    (hL : DM.LeftPart (s.map denseOf) o)
    (halive : ∀ E θ, DM.Found (Ws.map denseOf) (s.map denseOf) o E θ → ∃ q ∈ configs θ.dims, θ.f q ≠ 0)
    (hshared : ∀ ψ ψ', BlockPair late Ws s0 s o ψ ψ' → Shared ψ ψ')
    (htidy : ∀ t, NewPair late Ws s0 s o t → Tidy fac eps cutoff minB maxB t 2)
    (hfew : ∀ A, s[o]? = some A → ((A.shape.take 2).map List.length).prod < 2 ^ 63)
    (hsmall : ∀ A, s[o]? = some A → ((A.shape.take 2).map dimSize).prod < 2 ^ 63) :
    ∃ E s', (cutDmrgB late Ws fac eps cutoff minB maxB s0).fresh o fwd s = .ok (E, s') ∧ BlockFit s' Ws s' ∧ SameOuter s s' ∧
      Closed (s'.map denseOf) ∧ DM.LeftPart (s'.map denseOf) (if fwd then o + 1 else o) ∧
      (o + 2 = s.length → SemiCanonical (s'.map denseOf) (if fwd then o + 1 else o) ∧ normSq (s'.map denseOf) = 1) := by
  have hFd := fit_dense hF
  have ho' : o + 1 < (s.map denseOf).length := by simpa using ho
  obtain ⟨A, B, W1, W2, le, re, h2, ψ, ψ1, E, θ, n, i, m, j, n', T, gA, gB, gW1, gW2, i1, i2, i3, hψ, hA, hB, hψd, -, -, t1, t2, -, -, -⟩ :=
    DM.cold_found (Ws.map denseOf) (s.map denseOf) o hFd hc hcW ho'
  have hzero := DM.found_left (Ws.map denseOf) (s.map denseOf) o hFd hc hcW ho' hL gA gB gW1 gW2 i1 i2 i3 hψ hA hB t1
  have hθ0 : DM.toV [n, i, j, n'] θ ≠ 0 := by
    obtain ⟨q, hq, hne⟩ := halive E θ ⟨A, B, W1, W2, le, re, h2, ψ, gA, gB, gW1, gW2, hψ, i1, i2, i3, t1⟩
    intro hz
    rw [t2] at hq
    exact hne (congrArg (fun x : DM.Vec 𝕜 [n, i, j, n'] => x ⟨q, hq⟩) hz)
  obtain ⟨A0, B0, V1, V2, L, Rt, Le, Re, H2, q, le', re', h2', ψ', l, c, k, k', c', r, N, S⟩ :=
    update_setup late Ws s0 s (fun t => svdCutB fac eps t 2 cutoff minB maxB fun x => x ^ 2) o hF h0 hpW hc hcW hl hr ho
  have gA' := gA
  have gB' := gB
  rw [List.getElem?_map] at gA gB gW1 gW2
  rw [S.gA] at gA; cases gA
  rw [S.gB] at gB; cases gB
  rw [S.gW1] at gW1; cases gW1
  rw [S.gW2] at gW2; cases gW2
  rw [S.dl] at i1; cases i1
  rw [S.dr] at i2; cases i2
  rw [S.dh] at i3; cases i3
  rw [S.dq] at hψ; cases hψ
  have dA := S.dA
  have dB := S.dB
  have hA' := hA
  have hB' := hB
  rw [denseOf_dims, dA] at hA
  rw [denseOf_dims, dB] at hB
  obtain ⟨rfl, rfl, rfl⟩ : dimSize l = n ∧ dimSize c = i ∧ dimSize k = m := by simpa using hA
  obtain ⟨-, rfl, rfl⟩ : dimSize k' = dimSize k ∧ dimSize c' = j ∧ dimSize r = n' := by simpa using hB
  obtain ⟨N5, fe, t, a1, a2, a3, a4, a5, a6⟩ := twoSitesUpdateB_ok S.fit (by
    intro M ψ' hψ'
    refine hshared q ψ' ⟨A0, B0, V1, V2, L, Rt, Le, Re, H2, max M N, S.gA, S.gB, S.gW1, S.gW2, fun fuel hf => ?_⟩
    obtain ⟨y1, y2, y3, y4, y5⟩ := S.runs fuel (by omega)
    exact ⟨y1, y2, y3, y4, y5, hψ' fuel (by omega)⟩) t1
  have htidy' : Tidy fac eps cutoff minB maxB t 2 := by
    refine htidy t ⟨A0, B0, V1, V2, L, Rt, Le, Re, H2, q, sc fe, max N5 N, S.gA, S.gB, S.gW1, S.gW2, fun fuel hf => ?_⟩
    obtain ⟨y1, y2, y3, y4, y5⟩ := S.runs fuel (by omega)
    exact ⟨y1, y2, y3, y4, y5, a1 fuel (by omega)⟩
  have hpos : 0 < dimSize l ∧ 0 < dimSize c ∧ 0 < dimSize c' ∧ 0 < dimSize r := by
    by_contra hcon
    apply hθ0
    ext q
    have hq := MP.mem_configs.1 q.2
    unfold InRange at hq
    obtain ⟨qv, hqv⟩ := q
    obtain ⟨x, o1, hx, ho1, rfl⟩ := List.forall₂_cons_right_iff.1 hq
    obtain ⟨y, o2, hy, ho2, rfl⟩ := List.forall₂_cons_right_iff.1 ho1
    obtain ⟨y', o3, hy', ho3, rfl⟩ := List.forall₂_cons_right_iff.1 ho2
    obtain ⟨z, o4, hz, ho4, rfl⟩ := List.forall₂_cons_right_iff.1 ho3
    omega
  rw [S.sq] at a3
  obtain ⟨A', B', b, φ, b1, b2, b3, b4, b5, b6, C⟩ := new_sitesB_cold hfac a5 a3
    (by
      rw [a3]
      intro x hx
      simp at hx
      rcases hx with rfl | rfl | rfl | rfl
      · exact hpos.1
      · exact hpos.2.1
      · exact hpos.2.2.1
      · exact hpos.2.2.2)
    (by have := hfew A0 S.gA; rw [dA] at this; simpa using this) (by have := hsmall A0 S.gA; rw [dA] at this; simpa using this)
    hθ0 eps cutoff he0 he1 hcut minB maxB hmin htidy' fwd fe
  have hupd : (cutDmrgB late Ws fac eps cutoff minB maxB s0).upd fwd o ((cutDmrgB late Ws fac eps cutoff minB maxB s0).left s o)
      ((cutDmrgB late Ws fac eps cutoff minB maxB s0).right s (o + 2)) A0 B0 = .ok (fe [], A', B') := by
    unfold cutDmrgB
    rw [S.left, S.right]
    refine settle_eq (N := max N N5) fun fuel hf => ?_
    obtain ⟨y1, y2, y3, y4, y5⟩ := S.runs fuel (by omega)
    rw [← b1]
    unfold updB
    rw [y2, S.gW1, S.gW2]
    simp only [andThen, andNext, orUb]
    rw [y5]
    simp only
    rw [a1 fuel (by omega)]
  obtain ⟨k1, k2⟩ := pair_replaceB S.gA S.gB hF.ket dA dB b2 b3 (opposite_flipped b) b4 b5 (b6.trans (a4.trans S.rq))
  have hmap : ((s.set o A').set (o + 1) B').map denseOf = withPair (s.map denseOf) o (denseOf A') (denseOf B') := by
    rw [List.map_set, List.map_set]; rfl
  have hrow : ∀ x, x < dimSize l → DM.ZeroLast ((s.map denseOf).take o) x → ZeroRow (denseOf A') x :=
    fun x hx hz => C.zeroRow x hx fun y y' z hy hy' hz' => hzero x hx hz y y' z hy hy' hz'
  have hlp : DM.LeftPart (withPair (s.map denseOf) o (denseOf A') (denseOf B')) (if fwd then o + 1 else o) :=
    DM.leftPart_replace hL hFd.ket gA' gB' hA' C.dimsA fwd (fun h => ⟨C.left h, fun x hx => (C.same x hx).1⟩) hrow
  refine ⟨fe [], (s.set o A').set (o + 1) B', ?_, BlockFit.replace hF k1 k2, k2, SameOuter.closed_dense k2 hc, by rw [hmap]; exact hlp, ?_⟩
  · unfold Dmrg.fresh
    rw [S.gA, S.gB]
    simp only [hupd]
    rfl
  · intro hlast
    have hcan := hL.pair (by simpa using hlast)
    have hdrop : (s.map denseOf).drop (o + 2) = [] := List.drop_eq_nil_of_le (by simp; omega)
    have hnohead : ∀ z, ¬ DM.ZeroHead ((s.map denseOf).drop (o + 2)) z := by
      rintro z ⟨X, hX, -⟩
      rw [hdrop] at hX
      cases hX
    have hφs : DM.Supported ((s.map denseOf).take o) ((s.map denseOf).drop (o + 2)) φ := by
      intro x y y' z hq hz
      rw [C.dims] at hq
      have hq := MP.mem_configs.1 hq
      unfold InRange at hq
      simp only [List.forall₂_cons] at hq
      obtain ⟨hx, hy, hy', hz', -⟩ := hq
      rw [C.product x y y' z hx hy hy' hz']
      refine sum_eq_zero fun m hm => ?_
      rcases hz with hz | hz
      · rw [hrow x hx hz y m (by rw [C.dimsA]; exact hy) (by rw [C.dimsA]; exact mem_range.1 hm), zero_mul]
      · exact absurd hz (hnohead z)
    rw [hmap]
    exact ⟨DM.semi_replace hcan hFd.ket gA' gB' hA' hB' C.dimsA C.dimsB fwd (fun h => ⟨C.left h, fun x hx => (C.same x hx).1⟩)
      (fun h => ⟨C.right h, fun x hx => (C.same x hx).2⟩) hrow (fun z _ hz => absurd hz (hnohead z)),
      (DM.last_norm hFd hc hcan gA' gB' hA' hB' C.dims C.dimsA C.dimsB C.product hφs C.norm).2⟩

end BN
end QuantiT
