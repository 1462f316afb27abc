import Verif.Lemmas.BlockZero
import Verif.Lemmas.BlockCut2
import Verif.Props.CutUpdate
/-
C97: one two-site update of the block DMRG with truncation.
-/
namespace QuantiT.BN
open Spec BT MP Finset
variable {G 𝕜 : Type} [RCLike 𝕜]

/-- The block tensor that the eigensolver returns in the update at the pair `o`, `o + 1`, with the edges made for the chain `s0`. -/
def NewPair [AddCommGroup G] [DecidableEq G] (late : Bool) (Ws s0 s : List (BT G 𝕜)) (o : Nat) (t : BT G 𝕜) : Prop :=
  ∃ A B W1 W2 L Rt Le Re H2 ψ E N, s[o]? = some A ∧ s[o + 1]? = some B ∧ Ws[o]? = some W1 ∧ Ws[o + 1]? = some W2 ∧
    ∀ fuel, N ≤ fuel → envEdges late fuel Ws s0 = some (.ok (L, Rt)) ∧ tensordot fuel A B [2] [0] = some (.ok ψ) ∧
      leftEnvs fuel star (s.take o) (Ws.take o) L = some (.ok Le) ∧
      rightEnvs fuel star (s.drop (o + 2)) (Ws.drop (o + 2)) Rt = some (.ok Re) ∧
      twoSite fuel W1 W2 = some (.ok H2) ∧ twoSitesUpdateB fuel ψ H2 Le Re = some (.ok (E, t))

/-- From the new two-site tensor to the new chain. -/
theorem fresh_of_cut [AddCommGroup G] [LinearOrder G] {late : Bool} {Ws s0 s : List (BT G 𝕜)} {fac : Blk 𝕜 → Blk 𝕜 × Blk 𝕜 × Blk 𝕜}
    (hfac : DenseSvd fac) {eps cutoff : ℝ} (he0 : 0 < eps) (he1 : eps ≤ 1 / 2) (hcut : 0 ≤ cutoff) {minB maxB : Nat} (hmin : 1 ≤ minB ∨ cutoff < 1 ∧ 1 ≤ maxB) {o : Nat}
    {A B W1 W2 L Rt Le Re H2 q : BT G 𝕜} {le re h2 ψ : Blk 𝕜} {l c k k' c' r : Dim G} {N : Nat}
    (S : Setup late Ws s0 s (fun t => svdCutB fac eps t 2 cutoff minB maxB fun x => x ^ 2) o A B W1 W2 L Rt Le Re H2 q le re h2 ψ l c k k' c' r N)
    (hF : BlockFit s Ws s) (hc : Closed (s.map denseOf)) (hn : normSq (s.map denseOf) = 1)
    (hsm : ((A.shape.take 2).map List.length).prod < 2 ^ 63) (hsz : ((A.shape.take 2).map dimSize).prod < 2 ^ 63)
    {N5 : Nat} {fe : List Nat → ℝ} {t : BT G 𝕜} {θ : Blk 𝕜}
    (a1 : ∀ fuel, N5 ≤ fuel → twoSitesUpdateB fuel q H2 Le Re = some (.ok (sc fe, t))) (a3 : t.shape = q.shape) (a4 : t.rule = q.rule)
    (a5 : Rep t θ) (t3 : ‖DM.toV [dimSize l, dimSize c, dimSize c', dimSize r] θ‖ = 1) (htidy : Tidy fac eps cutoff minB maxB t 2) (fwd : Bool) :
    ∃ A' B' b φ κ p K0, (cutDmrgB late Ws fac eps cutoff minB maxB s0).fresh o fwd s = .ok (fe [], (s.set o A').set (o + 1) B') ∧
      BlockFit ((s.set o A').set (o + 1) B') Ws ((s.set o A').set (o + 1) B') ∧ SameOuter s ((s.set o A').set (o + 1) B') ∧
      ((s.set o A').set (o + 1) B').map denseOf = withPair (s.map denseOf) o (denseOf A') (denseOf B') ∧
      CutSites (denseOf A') (denseOf B') θ φ fwd eps cutoff minB maxB (dimSize l) (dimSize c) (dimSize c') (dimSize r) b p K0 κ := by
  have hnz := nonZero_of_normSq hc hn
  obtain ⟨-, zA⟩ := pos_of_site hF.ket hnz S.gA
  obtain ⟨-, zB⟩ := pos_of_site hF.ket hnz S.gB
  have dA := S.dA
  have dB := S.dB
  rw [S.sq] at a3
  obtain ⟨A', B', b, φ, κ, p, K0, b1, b2, b3, b4, b5, b6, b7⟩ := new_sitesB_zero hfac a5 a3
    (by
      rw [a3]
      intro x hx
      simp at hx
      rcases hx with rfl | rfl | rfl | rfl
      · exact zA _ (by rw [dA]; simp)
      · exact zA _ (by rw [dA]; simp)
      · exact zB _ (by rw [dB]; simp)
      · exact zB _ (by rw [dB]; simp))
    (by rw [dA] at hsm; simpa using hsm) (by rw [dA] at hsz; simpa using hsz) t3 eps cutoff he0 he1 hcut minB maxB hmin htidy fwd fe
  have hupd : (cutDmrgB late Ws fac eps cutoff minB maxB s0).upd fwd o ((cutDmrgB late Ws fac eps cutoff minB maxB s0).left s o)
      ((cutDmrgB late Ws fac eps cutoff minB maxB s0).right s (o + 2)) A B = .ok (fe [], A', B') := by
    unfold cutDmrgB
    rw [S.left, S.right]
    refine settle_eq (N := max N N5) fun fuel hf => ?_
    obtain ⟨y1, y2, y3, y4, y5⟩ := S.runs fuel (by omega)
    rw [← b1]
    unfold updB
    rw [y2, S.gW1, S.gW2]
    simp only [andThen, andNext, orUb]
    rw [y5]
    simp only
    rw [a1 fuel (by omega)]
  obtain ⟨k1, k2⟩ := pair_replaceB S.gA S.gB hF.ket dA dB b2 b3 (opposite_flipped b) b4 b5 (b6.trans (a4.trans S.rq))
  refine ⟨A', B', dimSize b, φ, κ, p, K0, ?_, BlockFit.replace hF k1 k2, k2, by rw [List.map_set, List.map_set]; rfl, b7⟩
  unfold Dmrg.fresh
  rw [S.gA, S.gB]
  simp only [hupd]
  rfl

/-- The chain with the new sites, for a pair of sites of a chain that is canonical apart from unused elements. -/
theorem cut_chain {Ws s : List (Blk 𝕜)} {o : Nat} (hF : Fit s Ws s) (hH : HermitianOp Ws (phys s)) (hcan : PairSemi s o)
    {A B A' B' θ φ : Blk 𝕜} {n i m j n' k p K0 : Nat} {E c : ℝ} (gA : s[o]? = some A) (gB : s[o + 1]? = some B)
    (hA : A.dims = [n, i, m]) (hB : B.dims = [m, j, n']) (hθ : θ.dims = [n, i, j, n']) (hθn : ‖DM.toV [n, i, j, n'] θ‖ = 1)
    (hθs : DM.Supported (s.take o) (s.drop (o + 2)) θ)
    (hE : E = vecEnergy Ws (phys s) (fun σ => pairAmp (s.take o) θ (s.drop (o + 2)) σ 0 0))
    (hN : ∀ θ φ : Blk 𝕜, θ.dims = [n, i, j, n'] → φ.dims = [n, i, j, n'] → DM.Supported (s.take o) (s.drop (o + 2)) θ →
      inner 𝕜 (DM.toV [n, i, j, n'] φ) (DM.toV [n, i, j, n'] θ) = ∑ σ ∈ configs (phys s),
        pairAmp (s.take o) θ (s.drop (o + 2)) σ 0 0 * star (pairAmp (s.take o) φ (s.drop (o + 2)) σ 0 0))
    (hsupp : ∀ θ : Blk 𝕜, θ.dims = [n, i, j, n'] → ∀ σ ∈ configs (phys s),
      pairAmp (s.take o) (DM.supp (s.take o) (s.drop (o + 2)) θ) (s.drop (o + 2)) σ 0 0 = pairAmp (s.take o) θ (s.drop (o + 2)) σ 0 0)
    (hnew : ∀ (θ A' B' : Blk 𝕜) (k : Nat), θ.dims = [n, i, j, n'] → A'.dims = [n, i, k] → B'.dims = [k, j, n'] →
      (∀ x c c' y, x < n → c < i → c' < j → y < n' → θ.f [x, c, c', y] = ∑ m ∈ range k, A'.f [x, c, m] * B'.f [m, c', y]) →
      Fit (withPair s o A' B') Ws (withPair s o A' B') ∧ Closed (withPair s o A' B') ∧ phys (withPair s o A' B') = phys s ∧
      (∀ σ ∈ configs (phys s), pairAmp (s.take o) θ (s.drop (o + 2)) σ 0 0 = amp (withPair s o A' B') σ 0 0))
    {fwd : Bool} {eps cutoff : ℝ} {minB maxB : Nat} (C : CutSites A' B' θ φ fwd eps cutoff minB maxB n i j n' k p K0 c) :
    Closed (withPair s o A' B') ∧ SemiCanonical (withPair s o A' B') (if fwd then o + 1 else o) ∧ normSq (withPair s o A' B') = 1 ∧
      BlockTruncation (phys s) (fun σ => pairAmp (s.take o) θ (s.drop (o + 2)) σ 0 0) s (withPair s o A' B') o eps cutoff minB maxB (1 - c ^ 2) ∧
      ∀ lo hi, BoundedBelow Ws (phys s) lo → BoundedAbove Ws (phys s) hi → |E - energy Ws (withPair s o A' B')| ≤ (hi - lo) * √(1 - c ^ 2) := by
  have ho := (List.getElem?_eq_some_iff.1 gB).1
  obtain ⟨w1, w2, w3, w4⟩ := hnew φ A' B' k C.dims C.dimsA C.dimsB C.product
  have hrow : ∀ x, x < n → DM.ZeroLast (s.take o) x → ZeroRow A' x := by
    intro x hx hz
    refine C.zeroRow x hx fun y y' z hy hy' hz' => ?_
    exact hθs x y y' z (by rw [hθ]; exact MP.mem_configs.2 (.cons hx (.cons hy (.cons hy' (.cons hz' .nil))))) (.inl hz)
  have hcol : ∀ z, z < n' → DM.ZeroHead (s.drop (o + 2)) z → ZeroCol B' z := by
    intro z hz hz'
    refine C.zeroCol z hz fun x y y' hx hy hy' => ?_
    exact hθs x y y' z (by rw [hθ]; exact MP.mem_configs.2 (.cons hx (.cons hy (.cons hy' (.cons hz .nil))))) (.inr hz')
  have hφs : DM.Supported (s.take o) (s.drop (o + 2)) φ := by
    intro x y y' z hq hz
    rw [C.dims] at hq
    have hq := MP.mem_configs.1 hq
    unfold InRange at hq
    obtain ⟨_, _, hx, ho1, e⟩ := List.forall₂_cons_right_iff.1 hq
    cases e
    obtain ⟨_, _, hy, ho2, e⟩ := List.forall₂_cons_right_iff.1 ho1
    cases e
    obtain ⟨_, _, hy', ho3, e⟩ := List.forall₂_cons_right_iff.1 ho2
    cases e
    obtain ⟨_, _, hz', ho4, e⟩ := List.forall₂_cons_right_iff.1 ho3
    cases e
    rw [C.product x y y' z hx hy hy' hz']
    refine sum_eq_zero fun m hm => ?_
    rcases hz with hz | hz
    · rw [hrow x hx hz y m (by rw [C.dimsA]; exact hy) (by rw [C.dimsA]; exact mem_range.1 hm), zero_mul]
    · rw [hcol z hz' hz m y' (by rw [C.dimsB]; exact mem_range.1 hm) (by rw [C.dimsB]; exact hy'), mul_zero]
  have normV : ∀ χ : Blk 𝕜, χ.dims = [n, i, j, n'] → DM.Supported (s.take o) (s.drop (o + 2)) χ →
      ‖DM.toV [n, i, j, n'] χ‖ ^ 2 = ∑ σ ∈ configs (phys s), ‖pairAmp (s.take o) χ (s.drop (o + 2)) σ 0 0‖ ^ 2 := by
    intro χ h1 h2
    have h := hN χ χ h1 h1 h2
    rw [inner_self_eq_norm_sq_to_K] at h
    have h' : ((‖DM.toV [n, i, j, n'] χ‖ ^ 2 : ℝ) : 𝕜) = ((∑ σ ∈ configs (phys s), ‖pairAmp (s.take o) χ (s.drop (o + 2)) σ 0 0‖ ^ 2 : ℝ) : 𝕜) := by
      push_cast
      rw [h]
      exact sum_congr rfl fun σ _ => RCLike.mul_conj _
    exact RCLike.ofReal_injective h'
  have hnv : vecNormSq (phys s) (fun σ => pairAmp (s.take o) θ (s.drop (o + 2)) σ 0 0) = 1 := by
    unfold vecNormSq
    rw [← normV θ hθ hθs, hθn, one_pow]
  have hnφ : normSq (withPair s o A' B') = 1 := by
    unfold normSq
    rw [w3]
    refine Eq.trans (sum_congr rfl fun σ hσ => by rw [← w4 σ hσ]) ((normV φ C.dims hφs).symm.trans (by rw [C.norm, one_pow]))
  have hov : ∀ (A' B' χ : Blk 𝕜) (k : Nat), A'.dims = [n, i, k] → B'.dims = [k, j, n'] → χ.dims = [n, i, j, n'] →
      (∀ x c c' y, x < n → c < i → c' < j → y < n' → χ.f [x, c, c', y] = ∑ m ∈ range k, A'.f [x, c, m] * B'.f [m, c', y]) →
      vecOverlap (phys s) (fun σ => pairAmp (s.take o) θ (s.drop (o + 2)) σ 0 0) (withPair s o A' B')
        = inner 𝕜 (DM.toV [n, i, j, n'] θ) (DM.toV [n, i, j, n'] (DM.supp (s.take o) (s.drop (o + 2)) χ)) := by
    intro A' B' χ k e1 e2 e3 e4
    rw [hN (DM.supp (s.take o) (s.drop (o + 2)) χ) θ e3 hθ (DM.supp_supported _ _ _)]
    unfold vecOverlap
    exact sum_congr rfl fun σ hσ => by rw [hsupp χ e3 σ hσ, (hnew χ A' B' k e3 e1 e2 e4).2.2.2 σ hσ]
  have hbond : bondAt (withPair s o A' B') o = k := by
    unfold bondAt withPair
    rw [List.getElem?_set_ne (by omega), List.getElem?_set_self (by omega)]
    simp [C.dimsA]
  have hused : usedBond (withPair s o A' B') o = p := by
    unfold usedBond withPair
    rw [List.getElem?_set_ne (by omega), List.getElem?_set_self (by omega), C.used]
    simp only [C.dimsA]
    rfl
  have hsupp_self : ∀ χ : Blk 𝕜, χ.dims = [n, i, j, n'] → DM.Supported (s.take o) (s.drop (o + 2)) χ →
      DM.toV [n, i, j, n'] (DM.supp (s.take o) (s.drop (o + 2)) χ) = DM.toV [n, i, j, n'] χ := by
    intro χ hχd hχs
    ext q
    obtain ⟨q, hq⟩ := q
    have hq' := MP.mem_configs.1 hq
    unfold InRange at hq'
    obtain ⟨x, o1, hx, ho1, rfl⟩ := List.forall₂_cons_right_iff.1 hq'
    obtain ⟨y, o2, hy, ho2, rfl⟩ := List.forall₂_cons_right_iff.1 ho1
    obtain ⟨y', o3, hy', ho3, rfl⟩ := List.forall₂_cons_right_iff.1 ho2
    obtain ⟨z, o4, hz, ho4, rfl⟩ := List.forall₂_cons_right_iff.1 ho3
    cases ho4
    show (DM.supp (s.take o) (s.drop (o + 2)) χ).f [x, y, y', z] = χ.f [x, y, y', z]
    unfold DM.supp
    by_cases h : DM.ZeroLast (s.take o) x ∨ DM.ZeroHead (s.drop (o + 2)) z
    · rw [hχs x y y' z (by rw [hχd]; exact hq) h]
      exact if_pos h
    · exact if_neg h
  have hsφ := hsupp_self φ C.dims hφs
  have htensor : ∀ (A'' B'' : Blk 𝕜) (k' : Nat), PairFits s o A'' B'' k' → normSq (withPair s o A'' B'') = 1 →
      ∃ (χ : Blk 𝕜) (x y : List Nat → Nat → 𝕜), ‖DM.toV [n, i, j, n'] χ‖ = 1 ∧ (∀ o ∈ configs [n, i, j, n'], χ.f o = terms x y k' (o.take 2) (o.drop 2)) ∧
        ‖vecOverlap (phys s) (fun σ => pairAmp (s.take o) θ (s.drop (o + 2)) σ 0 0) (withPair s o A'' B'')‖
          = ‖inner 𝕜 (DM.toV [n, i, j, n'] χ) (DM.toV [n, i, j, n'] θ)‖ := by
    rintro A'' B'' k' ⟨A0, B0, n0, i0, m0, j0, n0', r1, r2, r3, r4, r5, r6⟩ hnorm
    rw [gA] at r1; cases r1
    rw [gB] at r2; cases r2
    rw [hA] at r3; cases r3
    rw [hB] at r4; cases r4
    have hpf : ∀ x c c' y, x < n → c < i → c' < j → y < n' →
        (DM.pairProd A'' B'' n i j n' k').f [x, c, c', y] = ∑ m ∈ range k', A''.f [x, c, m] * B''.f [m, c', y] := fun _ _ _ _ _ _ _ _ => rfl
    rw [hov A'' B'' (DM.pairProd A'' B'' n i j n' k') k' r5 r6 rfl hpf, norm_inner_symm]
    have hu : ‖DM.toV [n, i, j, n'] (DM.supp (s.take o) (s.drop (o + 2)) (DM.pairProd A'' B'' n i j n' k'))‖ = 1 := by
      have h := normV (DM.supp (s.take o) (s.drop (o + 2)) (DM.pairProd A'' B'' n i j n' k')) rfl (DM.supp_supported _ _ _)
      have e : ∑ σ ∈ configs (phys s), ‖pairAmp (s.take o) (DM.supp (s.take o) (s.drop (o + 2)) (DM.pairProd A'' B'' n i j n' k')) (s.drop (o + 2)) σ 0 0‖ ^ 2
          = normSq (withPair s o A'' B'') := by
        unfold normSq
        obtain ⟨_, _, g1, g2⟩ := hnew (DM.pairProd A'' B'' n i j n' k') A'' B'' k' rfl r5 r6 hpf
        rw [g1]
        exact sum_congr rfl fun σ hσ => by rw [hsupp (DM.pairProd A'' B'' n i j n' k') rfl σ hσ, g2 σ hσ]
      rw [e, hnorm] at h
      exact (pow_eq_one_iff_of_nonneg (norm_nonneg _) (by norm_num)).1 h
    classical
    refine ⟨_, (fun e m => if DM.ZeroLast (s.take o) (e.getD 0 0) then 0 else A''.f (e ++ [m])),
      (fun f m => if DM.ZeroHead (s.drop (o + 2)) (f.getD 1 0) then 0 else B''.f (m :: f)), hu, ?_, rfl⟩
    intro q hq
    have hq' := MP.mem_configs.1 hq
    unfold InRange at hq'
    obtain ⟨x, o1, hx, ho1, rfl⟩ := List.forall₂_cons_right_iff.1 hq'
    obtain ⟨y, o2, hy, ho2, rfl⟩ := List.forall₂_cons_right_iff.1 ho1
    obtain ⟨y', o3, hy', ho3, rfl⟩ := List.forall₂_cons_right_iff.1 ho2
    obtain ⟨z, o4, hz, ho4, rfl⟩ := List.forall₂_cons_right_iff.1 ho3
    cases ho4
    unfold DM.supp
    show (if DM.ZeroLast (s.take o) x ∨ DM.ZeroHead (s.drop (o + 2)) z then 0 else (DM.pairProd A'' B'' n i j n' k').f [x, y, y', z]) =
      ∑ m ∈ range k', (if DM.ZeroLast (s.take o) x then 0 else A''.f [x, y, m]) * (if DM.ZeroHead (s.drop (o + 2)) z then 0 else B''.f [m, y', z])
    by_cases h1 : DM.ZeroLast (s.take o) x
    · simp [h1]
    · by_cases h2 : DM.ZeroHead (s.drop (o + 2)) z
      · simp [h2]
      · simp only [h1, h2, or_self, if_false]
        rfl
  have hothers : ∀ (A'' B'' : Blk 𝕜) (k' : Nat), PairFits s o A'' B'' k' → normSq (withPair s o A'' B'') = 1 →
      (k' ≤ p → ‖vecOverlap (phys s) (fun σ => pairAmp (s.take o) θ (s.drop (o + 2)) σ 0 0) (withPair s o A'' B'')‖ ^ 2 ≤ c ^ 2) ∧
      (minB ≤ k' → k' < K0 → ‖vecOverlap (phys s) (fun σ => pairAmp (s.take o) θ (s.drop (o + 2)) σ 0 0) (withPair s o A'' B'')‖ ^ 2 < 1 - cutoff ^ 2) := by
    intro A'' B'' k' hf hnorm
    obtain ⟨χ, x, y, q1, q2, q3⟩ := htensor A'' B'' k' hf hnorm
    rw [q3]
    exact C.others χ k' x y q1 q2
  have hlst : ∃ lst, SchmidtValues (phys s) (fun σ => pairAmp (s.take o) θ (s.drop (o + 2)) σ 0 0) s o lst ∧
      open Classical in usedBond (withPair s o A' B') o = (lst.filter fun x => decide ((1 - 2 * eps) * lst.getD (K0 - 1) 0 < x)).length := by
    obtain ⟨lst, hS, hl⟩ := C.values
    refine ⟨lst, ⟨hS.sorted, hS.nonneg, hS.total, ?_, ?_⟩, hused.trans hl⟩
    · intro k1 h1 h2
      obtain ⟨x, y, q1, q2, q3, q4⟩ := hS.attained k1 h1 h2
      let A1 : Blk 𝕜 := ⟨[n, i, k1], fun o => x (o.take 2) (o.getD 2 0)⟩
      let B1 : Blk 𝕜 := ⟨[k1, j, n'], fun o => y (o.drop 1) (o.getD 0 0)⟩
      let χ : Blk 𝕜 := ⟨[n, i, j, n'], fun o => terms x y k1 (o.take 2) (o.drop 2)⟩
      have q1 : ‖DM.toV [n, i, j, n'] χ‖ = 1 := q1
      have hχ : ∀ x c c' y, x < n → c < i → c' < j → y < n' → χ.f [x, c, c', y] = ∑ m ∈ range k1, A1.f [x, c, m] * B1.f [m, c', y] :=
        fun _ _ _ _ _ _ _ _ => rfl
      have hχs : DM.Supported (s.take o) (s.drop (o + 2)) χ := by
        intro a b b' z hq hz
        have hq := MP.mem_configs.1 hq
        unfold InRange at hq
        obtain ⟨_, _, ha, ho1, e⟩ := List.forall₂_cons_right_iff.1 hq
        cases e
        obtain ⟨_, _, hb, ho2, e⟩ := List.forall₂_cons_right_iff.1 ho1
        cases e
        obtain ⟨_, _, hb', ho3, e⟩ := List.forall₂_cons_right_iff.1 ho2
        cases e
        obtain ⟨_, _, hz', ho4, e⟩ := List.forall₂_cons_right_iff.1 ho3
        cases e
        have m1 : [a, b] ∈ configs [n, i] := MP.mem_configs.2 (.cons ha (.cons hb .nil))
        have m2 : [b', z] ∈ configs [j, n'] := MP.mem_configs.2 (.cons hb' (.cons hz' .nil))
        show terms x y k1 [a, b] [b', z] = 0
        rcases hz with hz | hz
        · refine q3 a b ha hb (fun f hf => ?_) _ m2
          have hf := MP.mem_configs.1 hf
          unfold InRange at hf
          obtain ⟨c1, g1, g2, g3, rfl⟩ := List.forall₂_cons_right_iff.1 hf
          obtain ⟨c2, g4, g5, g6, rfl⟩ := List.forall₂_cons_right_iff.1 g3
          cases g6
          exact hθs a b c1 c2 (by rw [hθ]; exact MP.mem_configs.2 (.cons ha (.cons hb (.cons g2 (.cons g5 .nil))))) (.inl hz)
        · refine q4 b' z hb' hz' (fun f hf => ?_) _ m1
          have hf := MP.mem_configs.1 hf
          unfold InRange at hf
          obtain ⟨c1, g1, g2, g3, rfl⟩ := List.forall₂_cons_right_iff.1 hf
          obtain ⟨c2, g4, g5, g6, rfl⟩ := List.forall₂_cons_right_iff.1 g3
          cases g6
          exact hθs c1 c2 b' z (by rw [hθ]; exact MP.mem_configs.2 (.cons g2 (.cons g5 (.cons hb' (.cons hz' .nil))))) (.inr hz)
      obtain ⟨_, _, g1, g2⟩ := hnew χ A1 B1 k1 rfl rfl rfl hχ
      refine ⟨A1, B1, ⟨A, B, n, i, m, j, n', gA, gB, hA, hB, rfl, rfl⟩, ?_, ?_⟩
      · unfold normSq
        rw [g1]
        refine Eq.trans (sum_congr rfl fun σ hσ => by rw [← g2 σ hσ]) ((normV χ rfl hχs).symm.trans (by rw [q1, one_pow]))
      · rw [hov A1 B1 χ k1 rfl rfl rfl hχ, hsupp_self χ rfl hχs, norm_inner_symm, q2]
    · intro A'' B'' k' hf hnorm
      obtain ⟨χ, x, y, q1, q2, q3⟩ := htensor A'' B'' k' hf hnorm
      rw [q3]
      exact hS.best χ k' x y q1 q2
  have hovφ : vecOverlap (phys s) (fun σ => pairAmp (s.take o) θ (s.drop (o + 2)) σ 0 0) (withPair s o A' B') = (c : 𝕜) := by
    rw [hov A' B' φ k C.dimsA C.dimsB C.dims C.product, hsφ, ← inner_conj_symm, C.overlap, RCLike.conj_ofReal]
  have c0 := C.pos
  have c1 := C.le
  refine ⟨w2, DM.semi_replace hcan hF.ket gA gB hA hB C.dimsA C.dimsB fwd (fun h => ⟨C.left h, fun x hx => (C.same x hx).1⟩)
    (fun h => ⟨C.right h, fun x hx => (C.same x hx).2⟩) hrow hcol, hnφ, ?_, ?_⟩
  · refine ⟨hnv, ?_, ?_, by rw [hused]; exact C.one, ⟨by nlinarith, by nlinarith, ?_⟩, by rw [hused]; exact C.small, ?_, ?_, K0, C.limit.1, C.limit.2, ?_, ?_, hlst⟩
    · rw [hbond]
      exact ⟨A', B', rfl, A, B, n, i, m, j, n', gA, gB, hA, hB, C.dimsA, C.dimsB⟩
    · intro A0 B0 r1 r2
      rw [gA] at r1; cases r1
      rw [gB] at r2; cases r2
      rw [hused, hA, hB]
      simpa using C.bound
    · rw [hovφ, RCLike.norm_ofReal, sq_abs]
      ring
    · rw [hused]
      intro h
      rw [C.min h]
      norm_num
    · intro A'' B'' k' hf hk hnorm
      rw [hused] at hk
      exact ((hothers A'' B'' k' hf hnorm).1 hk).trans (by linarith)
    · rw [hused]
      intro h
      rw [C.exact h]
      norm_num
    · intro A'' B'' k' hf h1 hk hnorm
      exact (hothers A'' B'' k' hf hnorm).2 h1 hk
  · intro lo hi hlo hhi
    have hen : energy Ws (withPair s o A' B') = vecEnergy Ws (phys s) (fun σ => amp (withPair s o A' B') σ 0 0) := by
      unfold energy vecEnergy sandwich
      rw [w3]
    rw [hE, hen]
    refine DM.energy_close Ws (phys s) hH lo hi hlo hhi _ _ hnv ?_ c ?_
    · unfold vecNormSq
      unfold normSq at hnφ
      rw [w3] at hnφ
      exact hnφ
    · have := congrArg star hovφ
      unfold vecOverlap at this
      rw [star_sum] at this
      refine Eq.trans (sum_congr rfl fun σ _ => ?_) (this.trans (RCLike.conj_ofReal c))
      rw [star_mul', star_star, mul_comm]

/-- The chains for which `C97_update_partial` speaks of the update at the pair `o`, `o + 1`. -/
structure CutAdmissible [AddCommGroup G] [LinearOrder G] (late : Bool) (Ws s0 : List (BT G 𝕜)) (fac : Blk 𝕜 → Blk 𝕜 × Blk 𝕜 × Blk 𝕜) (eps cutoff : ℝ)
    (minB maxB : Nat) (o : Nat) (s : List (BT G 𝕜)) : Prop where
  regular : DM.Regular (Ws.map denseOf) (s.map denseOf) o
  shared : ∀ ψ ψ', BlockPair late Ws s0 s o ψ ψ' → Shared ψ ψ'
  tidy : ∀ t, NewPair late Ws s0 s o t → Tidy fac eps cutoff minB maxB t 2
  few : ∀ A, s[o]? = some A → ((A.shape.take 2).map List.length).prod < 2 ^ 63
  small : ∀ A, s[o]? = some A → ((A.shape.take 2).map dimSize).prod < 2 ^ 63

/-- **C97** (partial: the cases left out by C81, and truncations that leave blocks of removed sections, see `Tidy`).  One update of the block
DMRG with the truncated SVD it calls, at any pair of sites of any block chain with ends of size one that is canonical around the
pair apart from unused elements of its bonds, for any hermitian Hamiltonian that is a block chain leaving the charge unchanged, every
cutoff and every limits of the bond with a minimum of at least one: it succeeds; the new chain conserves the charge rules, with
the same outer dimensions and total rule; it has norm one and is canonical, apart from unused elements, where the sweep goes on; the
energy returned is the expectation value of the Hamiltonian in the state `v` found before truncation, not above the previous
energy, and below it unless the two-site tensor was an eigenvector; the new chain is the best truncation of `v` with as many
elements in its bond as it uses; and its energy differs from the one returned by at most the width of the spectrum times the
square root of the weight lost. -/
theorem C97_update_partial [AddCommGroup G] [LinearOrder G] (late : Bool) (Ws s0 s : List (BT G 𝕜))
    {fac : Blk 𝕜 → Blk 𝕜 × Blk 𝕜 × Blk 𝕜} (hfac : DenseSvd fac) (eps cutoff : ℝ) (he0 : 0 < eps) (he1 : eps ≤ 1 / 2) (hcut : 0 ≤ cutoff)
    (minB maxB : Nat) (hmin : 1 ≤ minB ∨ cutoff < 1 ∧ 1 ≤ maxB) (o : Nat) (fwd : Bool) (hF : BlockFit s Ws s) (h0 : StartChain s0 s) (hpW : AllPositive Ws)
    (hc : Closed (s.map denseOf)) (hcW : Closed (Ws.map denseOf))
    (hl : late = false ∨ chargeAt (leftDim Ws) 0 = 0 ∧ chargeAt (rightDim Ws) 0 = 0) (hr : Neutral Ws)
    (hH : HermitianOp (Ws.map denseOf) (phys (s.map denseOf))) (ho : o + 1 < s.length)
    (hcan : PairSemi (s.map denseOf) o) (hn : normSq (s.map denseOf) = 1)
    (hadm : CutAdmissible late Ws s0 fac eps cutoff minB maxB o s) :
    ∃ E s' v w, (cutDmrgB late Ws fac eps cutoff minB maxB s0).fresh o fwd s = .ok (E, s') ∧ BlockFit s' Ws s' ∧ SameOuter s s' ∧
      Closed (s'.map denseOf) ∧ SemiCanonical (s'.map denseOf) (if fwd then o + 1 else o) ∧ normSq (s'.map denseOf) = 1 ∧
      E = vecEnergy (Ws.map denseOf) (phys (s.map denseOf)) v ∧
      BlockTruncation (phys (s.map denseOf)) v (s.map denseOf) (s'.map denseOf) o eps cutoff minB maxB w ∧
      E ≤ energy (Ws.map denseOf) (s.map denseOf) ∧
      ((∃ ψ ψ', DM.PairTensors (Ws.map denseOf) (s.map denseOf) o ψ ψ' ∧
          DM.Improvable ψ ψ' (energy (Ws.map denseOf) (s.map denseOf))) → E < energy (Ws.map denseOf) (s.map denseOf)) ∧
      (∀ ψ ψ', DM.PairTensors (Ws.map denseOf) (s.map denseOf) o ψ ψ' → ∀ (x y : 𝕜) (θ : Blk 𝕜), θ.dims = ψ.dims →
        (∀ o ∈ configs ψ.dims, θ.f o = x * ψ.f o + y * ψ'.f o) →
        E * ∑ σ ∈ configs (phys (s.map denseOf)),
            ‖pairAmp ((s.map denseOf).take o) θ ((s.map denseOf).drop (o + 2)) σ 0 0‖ ^ 2
          ≤ RCLike.re (pairSandwich ((s.map denseOf).take o) θ θ ((s.map denseOf).drop (o + 2)) (Ws.map denseOf)
              (phys (s.map denseOf)) 0 0 0 0 0 0)) ∧
      ∀ lo hi, BoundedBelow (Ws.map denseOf) (phys (s.map denseOf)) lo → BoundedAbove (Ws.map denseOf) (phys (s.map denseOf)) hi →
        |E - energy (Ws.map denseOf) (s'.map denseOf)| ≤ (hi - lo) * √w := by
  obtain ⟨A, B, W1, W2, le, re, h2, ψ, E, θ, n, i, m, j, n', gA, gB, gW1, gW2, i1, i2, i3, hψ, t1, hA, hB, t2, t3, tS, u4, u5, u6, u7, hN, hsupp, hnew⟩ :=
    DM.update_full_semi (Ws.map denseOf) (s.map denseOf) o (fit_dense hF) hc hcW hH (by simpa using ho) hcan hn hadm.regular
  obtain ⟨A0, B0, V1, V2, L, Rt, Le, Re, H2, q, le', re', h2', ψ', l, c, k, k', c', r, N, S⟩ :=
    update_setup late Ws s0 s (fun t => svdCutB fac eps t 2 cutoff minB maxB fun x => x ^ 2) o hF h0 hpW hc hcW hl hr ho
  have gA' := gA
  have gB' := gB
  rw [List.getElem?_map] at gA gB gW1 gW2
  rw [S.gA] at gA; cases gA
  rw [S.gB] at gB; cases gB
  rw [S.gW1] at gW1; cases gW1
  rw [S.gW2] at gW2; cases gW2
  rw [S.dl] at i1; cases i1
  rw [S.dr] at i2; cases i2
  rw [S.dh] at i3; cases i3
  rw [S.dq] at hψ; cases hψ
  have dA := S.dA
  have dB := S.dB
  have hA' := hA
  have hB' := hB
  rw [denseOf_dims, dA] at hA
  rw [denseOf_dims, dB] at hB
  obtain ⟨rfl, rfl, rfl⟩ : dimSize l = n ∧ dimSize c = i ∧ dimSize k = m := by simpa using hA
  obtain ⟨-, rfl, rfl⟩ : dimSize k' = dimSize k ∧ dimSize c' = j ∧ dimSize r = n' := by simpa using hB
  obtain ⟨N5, fe, t, a1, a2, a3, a4, a5, a6⟩ := twoSitesUpdateB_ok S.fit (by
    intro M ψ' hψ'
    refine hadm.shared q ψ' ⟨A0, B0, V1, V2, L, Rt, Le, Re, H2, max M N, S.gA, S.gB, S.gW1, S.gW2, fun fuel hf => ?_⟩
    obtain ⟨y1, y2, y3, y4, y5⟩ := S.runs fuel (by omega)
    exact ⟨y1, y2, y3, y4, y5, hψ' fuel (by omega)⟩) t1
  have htidy : Tidy fac eps cutoff minB maxB t 2 := by
    refine hadm.tidy t ⟨A0, B0, V1, V2, L, Rt, Le, Re, H2, q, sc fe, max N5 N, S.gA, S.gB, S.gW1, S.gW2, fun fuel hf => ?_⟩
    obtain ⟨y1, y2, y3, y4, y5⟩ := S.runs fuel (by omega)
    exact ⟨y1, y2, y3, y4, y5, a1 fuel (by omega)⟩
  obtain ⟨A', B', b, φ, κ, p, K0, b1, b2, b3, b4, b5⟩ := fresh_of_cut hfac he0 he1 hcut hmin S hF hc hn (hadm.few A0 S.gA) (hadm.small A0 S.gA)
    a1 a3 a4 a5 t3 htidy fwd
  obtain ⟨z1, z2, z3, z4, z5⟩ := cut_chain (fit_dense hF) hH hcan gA' gB' hA' hB' t2 t3 tS u7 hN hsupp hnew b5
  rw [← b4] at z1 z2 z3 z4 z5
  rw [a2] at b1
  exact ⟨E, (s.set o A').set (o + 1) B', _, _, b1, b2, b3, z1, z2, z3, u7, z4, u4, u5, u6, z5⟩

end QuantiT.BN
