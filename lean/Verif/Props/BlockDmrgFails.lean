import Verif.Props.BlockDmrg
import Verif.Lemmas.BlockDmrg6
/-
C81: the updates of the block DMRG that go wrong.
-/
namespace QuantiT.BN
open Spec BT MP Finset
variable {G 𝕜 : Type} [RCLike 𝕜]

/-- The other updates of **C81**: when the two-site tensor and its product with the effective Hamiltonian store no common block,
and the product is not zero, the energy returned is strictly below the energy of the state returned.  `psi_ip -= state * a0`
subtracts a tensor without blocks, which changes the sign of `psi_ip` (C21), and with it the sign of the off-diagonal entry of
the 2x2 matrix whose lowest eigenvector is taken.  A product state and a Hamiltonian without diagonal terms are such a case. -/
theorem C81_disjoint_fails [AddCommGroup G] [LinearOrder G] (late : Bool) (Ws s0 s : List (BT G 𝕜))
    (fac : Blk 𝕜 → Blk 𝕜 × Blk 𝕜 × Blk 𝕜) (hfac : SvdSizes fac) (hprod : SvdProduct fac) (horth : SvdOrtho fac) (hreal : SvdReal fac)
    (o : Nat) (fwd : Bool) (hF : BlockFit s Ws s) (h0 : StartChain s0 s) (hpW : AllPositive Ws)
    (hc : Closed (s.map denseOf)) (hcW : Closed (Ws.map denseOf))
    (hl : late = false ∨ chargeAt (leftDim Ws) 0 = 0 ∧ chargeAt (rightDim Ws) 0 = 0) (hr : Neutral Ws)
    (hH : HermitianOp (Ws.map denseOf) (phys (s.map denseOf))) (ho : o + 1 < s.length)
    (hcan : PairCanonical (s.map denseOf) o) (hn : normSq (s.map denseOf) = 1)
    (hdis : ∀ ψ ψ', BlockPair late Ws s0 s o ψ ψ' → ∀ k v v', (k, v) ∈ ψ.blocks → (k, v') ∉ ψ'.blocks)
    (hnz : ∀ ψ ψ', DM.PairTensors (Ws.map denseOf) (s.map denseOf) o ψ ψ' → (1e-15 : ℝ) ^ 2 ≤ ∑ o ∈ configs ψ.dims, ‖ψ'.f o‖ ^ 2)
    (hsm : ∀ A, s[o]? = some A → ((A.shape.take 2).map List.length).prod < 2 ^ 63) :
    ∃ E s', (bDmrg late Ws (fun t => svdSplit fac t 2) s0).fresh o fwd s = .ok (E, s') ∧ normSq (s'.map denseOf) = 1 ∧
      E < energy (Ws.map denseOf) (s'.map denseOf) := by
  obtain ⟨A, B, W1, W2, le, re, h2, ψ, n, i, m, j, n', T, gA, gB, gW1, gW2, i1, i2, i3, hψ, hA, hB, hψd, hsym, hψn, hψE, hT, hE, normV, hnew⟩ :=
    DM.pair_core (Ws.map denseOf) (s.map denseOf) o (fit_dense hF) hc hcW hH (by simpa using ho) hcan hn
  obtain ⟨A0, B0, V1, V2, L, Rt, Le, Re, H2, q, le', re', h2', ψ', l, c, k, k', c', r, N, S⟩ :=
    update_setup late Ws s0 s (fun t => svdSplit fac t 2) o hF h0 hpW hc hcW hl hr ho
  rw [List.getElem?_map] at gA gB gW1 gW2
  rw [S.gA] at gA; cases gA
  rw [S.gB] at gB; cases gB
  rw [S.gW1] at gW1; cases gW1
  rw [S.gW2] at gW2; cases gW2
  rw [S.dl] at i1; cases i1
  rw [S.dr] at i2; cases i2
  rw [S.dh] at i3; cases i3
  rw [S.dq] at hψ; cases hψ
  have dA := S.dA
  have dB := S.dB
  rw [denseOf_dims, dA] at hA
  rw [denseOf_dims, dB] at hB
  obtain ⟨rfl, rfl, rfl⟩ : dimSize l = n ∧ dimSize c = i ∧ dimSize k = m := by simpa using hA
  obtain ⟨-, rfl, rfl⟩ : dimSize k' = dimSize k ∧ dimSize c' = j ∧ dimSize r = n' := by simpa using hB
  obtain ⟨φ, k1, k2, k3⟩ := hT ψ hψd
  have hb : (1e-15 : ℝ) ≤ ‖T (DM.toV [dimSize l, dimSize c, dimSize c', dimSize r] ψ)‖ := by
    have := hnz ψ φ ⟨denseOf A0, denseOf B0, denseOf V1, denseOf V2, le, re, h2, by simp [S.gA], by simp [S.gB], by simp [S.gW1], by simp [S.gW2],
      S.dq, S.dl, S.dr, S.dh, k1⟩
    rw [hψd, ← DM.norm_toV, k3] at this
    exact le_of_sq_le_sq this (norm_nonneg _)
  obtain ⟨N5, fe, t, z, a1, a2, a3, a4, a5, a6, a7, a8⟩ := disjoint_update S.fit hψd hT hsym hψn (by
    rintro M ψ' hψ' k ⟨v, hk⟩ ⟨v', hk'⟩
    refine hdis q ψ' ⟨A0, B0, V1, V2, L, Rt, Le, Re, H2, max M N, S.gA, S.gB, S.gW1, S.gW2, fun fuel hf => ?_⟩ k v v' hk hk'
    obtain ⟨y1, y2, y3, y4, y5⟩ := S.runs fuel (by omega)
    exact ⟨y1, y2, y3, y4, y5, hψ' fuel (by omega)⟩) hb
  obtain ⟨A', B', b, b1, b2, b3, b4, b5, b6, b7, b8, b9⟩ := fresh_of_update hfac hprod horth hreal S hF hc hn (hsm A0 S.gA) a1 a2 a3 a4 a5 a7 fwd
  obtain ⟨z1, z2, z3, z4, z5, z6⟩ := hnew z (denseOf A') (denseOf B') b fwd a6 a7 b5 b6 b7 b8 b9
  rw [← b4] at z5 z6
  exact ⟨fe [], _, b1, z5, by rw [z6]; exact a8⟩

/-- The tail of the decomposition of 2x2 matrices, when no entry is stored. -/
theorem eig2x2B_empty [AddCommGroup G] [DecidableEq G] (fuel : Nat) :
    eig2x2B fuel (noSc : BT G ℝ) noSc noSc = some (Res.throw .runtimeError) := by
  have hop : ∀ op : Option ℝ → Option ℝ → Option ℝ, broadcastOp op (noSc : BT G (Option ℝ)) noSc = .ok noSc := fun op =>
    noSc_op op (.inl rfl) (.inl rfl) (.inl rfl)
  have hop' : ∀ op : ℝ → ℝ → ℝ, broadcastOp op (noSc : BT G ℝ) noSc = .ok noSc := fun op => noSc_op op (.inl rfl) (.inl rfl) (.inl rfl)
  have han : addNan (noSc : BT G (Option ℝ)) noSc = .ok noSc := by
    simp only [addNan, addCheck, noSc]
    rfl
  have h : ∃ Z : Prop, eigCoeffs (noSc : BT G ℝ) noSc noSc = .ok (noSc, noSc, noSc, Z) ∧ ¬ Z := by
    unfold eigCoeffs
    simp only [noSc_add_noSc, noSc_conj, noSc_map, noSc_scale, mul, hop, hop', bind, Except.bind, numB, han]
    refine ⟨_, rfl, ?_⟩
    simp
    rfl
  obtain ⟨Z, h1, h2⟩ := h
  unfold eig2x2B
  rw [h1]
  simp only [andNext, andThen, if_neg h2]
  rfl

/-- Two tensors of which one stores nothing have the number without block for product. -/
theorem dot4B_empty [AddCommGroup G] [LinearOrder G] {t t' : BT G 𝕜} {z z' : Blk 𝕜} (h : Rep t z) (h' : Rep t' z') {t0 t1 t2 t3 s0 s1 s2 s3 : Dim G}
    (sh : t.shape = [t0, t1, t2, t3]) (sh' : t'.shape = [s0, s1, s2, s3]) (o0 : Opposite t0 s0) (o1 : Opposite t1 s1) (o2 : Opposite t2 s2)
    (o3 : Opposite t3 s3) (hr : t.rule + t'.rule = 0) (he : ∀ k, ¬ HasKey t k) :
    ∃ N, ∀ fuel, N ≤ fuel → dot4B fuel t t' = some (.ok (noSc : BT G ℝ)) := by
  rcases dot4B_cases h h' sh sh' o0 o1 o2 o3 hr with ⟨k, k1, _⟩ | ⟨_, N, hh, _⟩
  · exact absurd k1 (he k)
  · exact ⟨N, hh⟩

/-- The update when the product stores no block. -/
theorem empty_update [AddCommGroup G] [LinearOrder G] {θ H L Rt : BT G 𝕜} {x h l r : Blk 𝕜} {t0 t1 t2 t3 : Dim G} (f : UpdateFit θ H L Rt x h l r t0 t1 t2 t3)
    (hem : ∀ N ψ', (∀ fuel, N ≤ fuel → hamil2site fuel θ H L Rt = some (.ok ψ')) → ψ'.blocks = []) :
    ∃ N, ∀ fuel, N ≤ fuel → twoSitesUpdateB fuel θ H L Rt = some (Res.throw .runtimeError) := by
  obtain ⟨N1, q, y, a1, a2, a3, a4, a5⟩ := f.times
  have hq : ∀ k, ¬ HasKey q k := fun k hk => hk.ne_nil (hem N1 q a1)
  obtain ⟨N2, b1⟩ := dot4B_empty a5 (rep_conj (star_zero 𝕜) f.rθ) (a3.trans f.sθ) (conj_shape4 f.sθ) (opposite_flipped _) (opposite_flipped _)
    (opposite_flipped _) (opposite_flipped _) (by show q.rule + -θ.rule = 0; rw [a4, add_neg_cancel]) hq
  have c1 := op_noSc (· * ·) θ
  obtain ⟨q2, d1, d2, d3, d4⟩ := rep_add_empty a5 (-1)
  have e0 : (⟨q.shape, q.rule, []⟩ : BT G 𝕜) = ⟨θ.shape, θ.rule, []⟩ := by rw [a3, a4]
  rw [e0] at d1
  have dk := hasKey_add a5.1.1.sorted (b := (⟨θ.shape, θ.rule, []⟩ : BT G 𝕜)) .nil d1
  have hq2 : ∀ k, ¬ HasKey q2 k := fun k hk => by
    rcases (dk k).1 hk with h | h
    · exact hq k h
    · exact h.ne_nil rfl
  have s2 : q2.shape = θ.shape := d2.trans a3
  have r2 : q2.rule = θ.rule := d3.trans a4
  obtain ⟨N3, e1⟩ := dot4B_empty d4 (rep_conj (star_zero 𝕜) d4) (s2.trans f.sθ) (conj_shape4 (s2.trans f.sθ)) (opposite_flipped _) (opposite_flipped _)
    (opposite_flipped _) (opposite_flipped _) (by show q2.rule + -q2.rule = 0; rw [add_neg_cancel]) hq2
  obtain ⟨N4, q', y', m1, m2, m3, m4, m5⟩ := (f.with d4 s2).times
  obtain ⟨N5, n1⟩ := dot4B_empty (rep_conj (star_zero 𝕜) d4) m5 (conj_shape4 (s2.trans f.sθ)) (m3.trans (s2.trans f.sθ)) (flipped_opposite _)
    (flipped_opposite _) (flipped_opposite _) (flipped_opposite _) (by show -q2.rule + q'.rule = 0; rw [m4, neg_add_cancel])
    (fun k hk => hq2 k ((hasKey_conj _ _ _).1 hk))
  refine ⟨max N1 (max N2 (max N3 (max N4 N5))), fun fuel hf => ?_⟩
  unfold twoSitesUpdateB lanczosB
  rw [a1 fuel (by omega)]
  simp only [andThen, andNext]
  rw [b1 fuel (by omega)]
  simp only [mul, show (ofRealB (noSc : BT G ℝ) : BT G 𝕜) = noSc from rfl, c1, d1]
  rw [e1 fuel (by omega)]
  simp only [noSc_map, noSc_item, ne_eq, not_true_eq_false, if_false]
  rw [m1 fuel (by omega)]
  simp only
  rw [n1 fuel (by omega)]
  simp only
  rw [eig2x2B_empty]
  rfl

/-- The update of **C81** when the product of the two-site tensor with the effective Hamiltonian stores no block: no entry of the
2x2 matrix is stored, `any` of a tensor without blocks is undefined, and reading it throws, although the dense update only
would report that the state is an eigenvector for the energy zero. -/
theorem C81_empty_fails [AddCommGroup G] [LinearOrder G] (late : Bool) (Ws s0 s : List (BT G 𝕜))
    (svd : BT G 𝕜 → Res (BT G 𝕜 × BT G 𝕜 × BT G 𝕜))
    (o : Nat) (fwd : Bool) (hF : BlockFit s Ws s) (h0 : StartChain s0 s) (hpW : AllPositive Ws)
    (hc : Closed (s.map denseOf)) (hcW : Closed (Ws.map denseOf))
    (hl : late = false ∨ chargeAt (leftDim Ws) 0 = 0 ∧ chargeAt (rightDim Ws) 0 = 0) (hr : Neutral Ws) (ho : o + 1 < s.length)
    (hem : ∀ ψ ψ', BlockPair late Ws s0 s o ψ ψ' → ψ'.blocks = []) :
    (bDmrg late Ws svd s0).fresh o fwd s = Res.throw .runtimeError := by
  obtain ⟨A0, B0, V1, V2, L, Rt, Le, Re, H2, q, le', re', h2', ψ', l, c, k, k', c', r, N, S⟩ :=
    update_setup late Ws s0 s svd o hF h0 hpW hc hcW hl hr ho
  obtain ⟨N5, a1⟩ := empty_update S.fit (by
    intro M ψ' hψ'
    refine hem q ψ' ⟨A0, B0, V1, V2, L, Rt, Le, Re, H2, max M N, S.gA, S.gB, S.gW1, S.gW2, fun fuel hf => ?_⟩
    obtain ⟨y1, y2, y3, y4, y5⟩ := S.runs fuel (by omega)
    exact ⟨y1, y2, y3, y4, y5, hψ' fuel (by omega)⟩)
  have hupd : (bDmrg late Ws svd s0).upd fwd o ((bDmrg late Ws svd s0).left s o)
      ((bDmrg late Ws svd s0).right s (o + 2)) A0 B0 = Res.throw .runtimeError := by
    rw [S.left, S.right]
    refine settle_eq (N := max N N5) fun fuel hf => ?_
    obtain ⟨y1, y2, y3, y4, y5⟩ := S.runs fuel (by omega)
    unfold updB
    rw [y2, S.gW1, S.gW2]
    simp only [andThen, andNext, orUb]
    rw [y5]
    simp only
    rw [a1 fuel (by omega)]
    rfl
  unfold Dmrg.fresh
  rw [S.gA, S.gB]
  simp only [hupd]
  rfl

end QuantiT.BN
