import Verif.Lemmas.BlockDmrg5
import Verif.Props.BlockMove
/-
C81: one two-site update of the block DMRG.
-/
namespace QuantiT.BN
open Spec BT MP Finset
variable {G 𝕜 : Type} [RCLike 𝕜]

/-- The block tensors the update at the pair `o`, `o + 1` starts from, with the edges made for the chain `s0`: the two-site
tensor and its product with the effective Hamiltonian. -/
def BlockPair [AddCommGroup G] [DecidableEq G] (late : Bool) (Ws s0 s : List (BT G 𝕜)) (o : Nat) (ψ ψ' : BT G 𝕜) : Prop :=
  ∃ A B W1 W2 L Rt Le Re H2 N, s[o]? = some A ∧ s[o + 1]? = some B ∧ Ws[o]? = some W1 ∧ Ws[o + 1]? = some W2 ∧
    ∀ fuel, N ≤ fuel → envEdges late fuel Ws s0 = some (.ok (L, Rt)) ∧ tensordot fuel A B [2] [0] = some (.ok ψ) ∧
      leftEnvs fuel star (s.take o) (Ws.take o) L = some (.ok Le) ∧
      rightEnvs fuel star (s.drop (o + 2)) (Ws.drop (o + 2)) Rt = some (.ok Re) ∧
      twoSite fuel W1 W2 = some (.ok H2) ∧ hamil2site fuel ψ H2 Le Re = some (.ok ψ')

/-- An operator chain whose rules add up to the charges of its two ends: it leaves the charge of a state unchanged. -/
def Neutral [AddCommGroup G] (Ws : List (BT G 𝕜)) : Prop :=
  (Ws.map BT.rule).sum = chargeAt (leftDim Ws) 0 + chargeAt (rightDim Ws) 0

/-- The chain the environments were made for. -/
structure StartChain [AddCommGroup G] (s0 s : List (BT G 𝕜)) : Prop where
  nonempty : s0 ≠ []
  chained : Chained 3 s0
  positive : AllPositive s0
  left : leftDim s0 = leftDim s
  right : rightDim s0 = rightDim s

theorem nonZero_of_normSq {s : List (Blk 𝕜)} (hc : Closed s) (hn : normSq s = 1) : NonZero s := by
  unfold normSq at hn
  obtain ⟨σ, h1, h2⟩ := exists_ne_zero_of_sum_ne_zero (s := configs (phys s)) (f := fun σ => ‖amp s σ 0 0‖ ^ 2) (by rw [hn]; norm_num)
  refine ⟨σ, 0, 0, MP.mem_configs.mp h1, by rw [hc.1]; norm_num, by rw [hc.2]; norm_num, fun h => h2 ?_⟩
  simp [h]

theorem BlockFit.replace [AddCommMonoid G] {Ws s s' : List (BT G 𝕜)} (h : BlockFit s Ws s) (hc : Chained 3 s') (ho : SameOuter s s') :
    BlockFit s' Ws s' := by
  refine ⟨hc, h.op, hc, ?_, ?_⟩
  · have := h.cols
    rw [← List.forall₂_map_left_iff (f := fun A : BT G 𝕜 => A.shape.getD 1 []) (R := fun d (W : BT G 𝕜) => Opposite d (W.shape.getD 3 []))] at this ⊢
    rw [ho.phys]; exact this
  · have := h.rows
    rw [← List.forall₂_map_right_iff (f := fun A : BT G 𝕜 => A.shape.getD 1 []) (R := fun (W : BT G 𝕜) d => W.shape.getD 1 [] = d)] at this ⊢
    rw [ho.phys]; exact this

theorem dot_pair [AddCommGroup G] [DecidableEq G] {A B : BT G 𝕜} {l s m m' t r : Dim G} (sA : Sound A) (sB : Sound B)
    (dA : A.shape = [l, s, m]) (dB : B.shape = [m', t, r]) (hm : Opposite m m') {ψ : Blk 𝕜}
    (hψ : dot1 (denseOf A) (denseOf B) 2 0 = .ok ψ) :
    ∃ N q, (∀ fuel, N ≤ fuel → tensordot fuel A B [2] [0] = some (.ok q)) ∧ q.shape = [l, s, t, r] ∧ q.rule = A.rule + B.rule ∧ Rep q ψ := by
  obtain ⟨q, h1, h2, h3, h4, h5⟩ := C23_returns A B sA.1 sB.1 [2] [0] (by simp) (by simp) [l, s] [t, r] [m] [m']
    (by rw [dA]; rfl) (by rw [dB]; rfl) (by rw [dA]; rfl) (by rw [dB]; rfl) (.cons hm .nil) sA.2 sB.2
    (.inr ⟨by simp [dA], .inr (by simp [dB])⟩) _ le_rfl
  have h2 : q.shape = [l, s, t, r] := h2
  have gA : (denseOf A).dims = [dimSize l, dimSize s, dimSize m] := by rw [denseOf_dims, dA]; rfl
  have gB : (denseOf B).dims = [dimSize m, dimSize t, dimSize r] := by rw [denseOf_dims, dB, dimSize_opposite hm]; rfl
  simp only [dot1, gA, gB, List.getElem?_cons_succ, List.getElem?_cons_zero, if_true] at hψ
  cases hψ
  refine ⟨_, q, fun fuel hf => tensordot_mono hf h1, h2, h3, ⟨⟨h4, ?_⟩, ?_, ?_⟩⟩
  · rw [h2]
    intro x hx
    simp at hx
    rcases hx with rfl | rfl | rfl | rfl
    · exact sA.2 _ (by rw [dA]; simp)
    · exact sA.2 _ (by rw [dA]; simp)
    · exact sB.2 _ (by rw [dB]; simp)
    · exact sB.2 _ (by rw [dB]; simp)
  · rw [denseOf_dims, h2]; rfl
  · intro o ho
    rw [denseOf_dims, h2] at ho
    unfold InRange at ho
    obtain ⟨x, o1, hx, ho1, rfl⟩ := List.forall₂_cons_right_iff.1 ho
    obtain ⟨c, o2, hc, ho2, rfl⟩ := List.forall₂_cons_right_iff.1 ho1
    obtain ⟨c', o3, hc', ho3, rfl⟩ := List.forall₂_cons_right_iff.1 ho2
    obtain ⟨y, o4, hy, ho4, rfl⟩ := List.forall₂_cons_right_iff.1 ho3
    cases ho4
    have := h5 [x, c] [c', y] (.cons hx (.cons hc .nil)) (.cons hc' (.cons hy .nil))
    rw [show ([m] : Shape G).map dimSize = [dimSize m] from rfl, sum_indices1] at this
    exact this

/-- All the tensors an update starts from, block and dense. -/
structure Setup [AddCommGroup G] [DecidableEq G] (late : Bool) (Ws s0 s : List (BT G 𝕜)) (svd : BT G 𝕜 → Res (BT G 𝕜 × BT G 𝕜 × BT G 𝕜)) (o : Nat)
    (A B W1 W2 L Rt Le Re H2 q : BT G 𝕜) (le re h2 ψ : Blk 𝕜) (l c k k' c' r : Dim G) (N : Nat) : Prop where
  gA : s[o]? = some A
  gB : s[o + 1]? = some B
  gW1 : Ws[o]? = some W1
  gW2 : Ws[o + 1]? = some W2
  dA : A.shape = [l, c, k]
  dB : B.shape = [k', c', r]
  sq : q.shape = [l, c, c', r]
  rq : q.rule = A.rule + B.rule
  runs : ∀ fuel, N ≤ fuel → envEdges late fuel Ws s0 = some (.ok (L, Rt)) ∧ tensordot fuel A B [2] [0] = some (.ok q) ∧
      leftEnvs fuel star (s.take o) (Ws.take o) L = some (.ok Le) ∧
      rightEnvs fuel star (s.drop (o + 2)) (Ws.drop (o + 2)) Rt = some (.ok Re) ∧ twoSite fuel W1 W2 = some (.ok H2)
  left : (bDmrg late Ws svd s0).left s o = .ok Le
  right : (bDmrg late Ws svd s0).right s (o + 2) = .ok Re
  dl : MP.leftEnvs star ((s.map denseOf).take o) ((Ws.map denseOf).take o) (MP.onesLike [1, 1, 1]) = .ok le
  dr : MP.rightEnvs star ((s.map denseOf).drop (o + 2)) ((Ws.map denseOf).drop (o + 2)) (MP.onesLike [1, 1, 1]) = .ok re
  dh : MP.twoSite (denseOf W1) (denseOf W2) = .ok h2
  dq : dot1 (denseOf A) (denseOf B) 2 0 = .ok ψ
  fit : UpdateFit q H2 Le Re ψ h2 le re l c c' r

theorem update_setup [AddCommGroup G] [DecidableEq G] (late : Bool) (Ws s0 s : List (BT G 𝕜))
    (svd : BT G 𝕜 → Res (BT G 𝕜 × BT G 𝕜 × BT G 𝕜)) (o : Nat) (hF : BlockFit s Ws s) (h0 : StartChain s0 s) (hpW : AllPositive Ws)
    (hc : Closed (s.map denseOf)) (hcW : Closed (Ws.map denseOf))
    (hl : late = false ∨ chargeAt (leftDim Ws) 0 = 0 ∧ chargeAt (rightDim Ws) 0 = 0) (hr : Neutral Ws) (ho : o + 1 < s.length) :
    ∃ A B W1 W2 L Rt Le Re H2 q le re h2 ψ l c k k' c' r N,
      Setup late Ws s0 s svd o A B W1 W2 L Rt Le Re H2 q le re h2 ψ l c k k' c' r N := by
  have hWl : Ws.length = s.length := hF.cols.length_eq.symm
  obtain ⟨A, gA⟩ : ∃ A, s[o]? = some A := ⟨_, List.getElem?_eq_getElem (by omega)⟩
  obtain ⟨B, gB⟩ : ∃ B, s[o + 1]? = some B := ⟨_, List.getElem?_eq_getElem ho⟩
  obtain ⟨W1, gW1⟩ : ∃ W, Ws[o]? = some W := ⟨_, List.getElem?_eq_getElem (by omega)⟩
  obtain ⟨W2, gW2⟩ : ∃ W, Ws[o + 1]? = some W := ⟨_, List.getElem?_eq_getElem (by omega)⟩
  obtain ⟨sA, rA⟩ := hF.ket.1 _ (List.mem_of_getElem? gA)
  obtain ⟨sB, rB⟩ := hF.ket.1 _ (List.mem_of_getElem? gB)
  obtain ⟨l, c, k, dA⟩ := List.length_eq_three.1 rA
  obtain ⟨k', c', r, dB⟩ := List.length_eq_three.1 rB
  have hkk : Opposite k k' := by
    have := hF.ket.2 o A B gA gB
    rw [dA, dB] at this
    exact this
  -- environments
  have nW : Ws ≠ [] := by rintro rfl; simp at gW1
  obtain ⟨N0, L, Rt, e0, eL, eR, sL, sR, rL, rR, repL, repR⟩ := edges_bDmrg late Ws s0 svd h0.chained h0.nonempty hF.op nW
    h0.positive hpW (by
      refine ⟨?_, ?_⟩
      · rw [leftEnd_dense, h0.left, ← leftEnd_dense]; exact hc.1
      · rw [rightEnd_dense, h0.right, ← rightEnd_dense]; exact hc.2) hcW hl
  rw [h0.left] at sL
  rw [h0.right] at sR
  obtain ⟨hs, hset⟩ := DM.list_pair gA gB
  obtain ⟨hW, -⟩ := DM.list_pair gW1 gW2
  have hF' := hF
  rw [hs, hW] at hF'
  have assoc : ∀ (x y : List (BT G 𝕜)) (u v : BT G 𝕜), x ++ u :: v :: y = (x ++ [u]) ++ v :: y := by intro x y u v; simp
  have hln : (Ws.take o).length = (s.take o).length := by simp [hWl]
  have hln' : (Ws.take o ++ [W1]).length = (s.take o ++ [A]).length := by simp [hWl]
  obtain ⟨f0, f1, ⟨N1, Le, le', p1, p2, p3, p4, p5⟩, oe0, oe1⟩ := runs_leftPart (c := star) (star_zero 𝕜) hF' hln repL
    (flipped (leftDim s)) (flipped (leftDim Ws)) (by rw [← hs]; exact sL) (by rw [← hs]; exact flipped_opposite _)
    (by rw [← hW]; exact flipped_opposite _)
  obtain ⟨q0, q1, ⟨N2, Re, re', v1, v2, v3, v4, v5⟩, of0, of1⟩ := runs_rightPart (c := star) (star_zero 𝕜) (pre := s.take o ++ [A])
    (preW := Ws.take o ++ [W1]) (by rw [← assoc, ← assoc]; exact hF') hln' repR
    (flipped (rightDim s)) (flipped (rightDim Ws)) (by rw [← assoc, ← hs]; exact sR) (by rw [← assoc, ← hs]; exact flipped_opposite _)
    (by rw [← assoc, ← hW]; exact flipped_opposite _)
  rw [List.map_take, List.map_take] at p2
  rw [List.map_drop, List.map_drop] at v2
  obtain ⟨_, w1, _⟩ := chained_append hF'.op
  obtain ⟨_, c1⟩ := forall₂_split hln hF'.cols
  obtain ⟨_, d1⟩ := forall₂_split hln.symm hF'.rows
  obtain ⟨c2, c3⟩ := List.forall₂_cons.mp c1
  obtain ⟨c4, _⟩ := List.forall₂_cons.mp c3
  obtain ⟨d2, d3⟩ := List.forall₂_cons.mp d1
  obtain ⟨d4, _⟩ := List.forall₂_cons.mp d3
  obtain ⟨SW1, kW1⟩ := w1.1 W1 (by simp)
  obtain ⟨SW2, kW2⟩ := w1.1 W2 (by simp)
  obtain ⟨N3, H2, h2', x1, x2, x3, x4, x5⟩ := runs_twoSite (Rep.self SW1) (Rep.self SW2) (shape4 kW1) (shape4 kW2) (chained_next w1)
  obtain ⟨ψ, hψ⟩ : ∃ ψ, dot1 (denseOf A) (denseOf B) 2 0 = .ok ψ := by
    have gA : (denseOf A).dims = [dimSize l, dimSize c, dimSize k] := by rw [denseOf_dims, dA]; rfl
    have gB : (denseOf B).dims = [dimSize k, dimSize c', dimSize r] := by rw [denseOf_dims, dB, dimSize_opposite hkk]; rfl
    exact ⟨_, by simp [dot1, gA, gB]; rfl⟩
  obtain ⟨N4, q, y1, y2, y3, y4⟩ := dot_pair sA sB dA dB hkk hψ
  rw [dA] at p3 oe0 c2 d2
  rw [dB] at v3 of0 c4 d4
  have uf : UpdateFit q H2 Le Re ψ h2' le' re' l c c' r := by
    refine ⟨y4, x5, p5, v5, y2, ⟨f0, f1, p3, oe0, q0, q1, v3, of0, _, _, _, _, ?_, oe1, c2, c4, of1⟩, ?_⟩
    · rw [x3, d2, d4]; rfl
    · rw [p4, x4, v4, rL, rR]
      have : (Ws.map BT.rule).sum = ((Ws.take o).map BT.rule).sum + (W1.rule + (W2.rule + ((Ws.drop (o + 2)).map BT.rule).sum)) := by
        conv_lhs => rw [hW]
        simp only [List.map_append, List.map_cons, List.sum_append, List.sum_cons]
      unfold Neutral at hr
      rw [this] at hr
      calc _ = ((Ws.take o).map BT.rule).sum + (W1.rule + (W2.rule + ((Ws.drop (o + 2)).map BT.rule).sum))
          - (chargeAt (leftDim Ws) 0 + chargeAt (rightDim Ws) 0) := by abel
        _ = 0 := by rw [hr, sub_self]
  refine ⟨A, B, W1, W2, L, Rt, Le, Re, H2, q, le', re', h2', ψ, l, c, k, k', c', r, max (max N0 N1) (max N2 (max N3 N4)), gA, gB, gW1, gW2, dA, dB,
    y2, y3, fun fuel hf => ⟨e0 fuel (by omega), y1 fuel (by omega), p1 fuel (by omega), v1 fuel (by omega), x1 fuel (by omega)⟩,
    left_bDmrg (by omega) hWl eL (p1 N1 le_rfl), right_bDmrg eR (v1 N2 le_rfl), p2, v2, x2, hψ, uf⟩

/-- The tensors `BlockPair` speaks of stand for the dense ones. -/
theorem BlockPair.rep [AddCommGroup G] [DecidableEq G] {late : Bool} {Ws s0 s : List (BT G 𝕜)} {o : Nat} (hF : BlockFit s Ws s)
    (h0 : StartChain s0 s) (hpW : AllPositive Ws) (hc : Closed (s.map denseOf)) (hcW : Closed (Ws.map denseOf))
    (hl : late = false ∨ chargeAt (leftDim Ws) 0 = 0 ∧ chargeAt (rightDim Ws) 0 = 0) (hr : Neutral Ws) (ho : o + 1 < s.length)
    {ψ ψ' : BT G 𝕜} (h : BlockPair late Ws s0 s o ψ ψ') :
    ∃ x x', DM.PairTensors (Ws.map denseOf) (s.map denseOf) o x x' ∧ Rep ψ x ∧ Rep ψ' x' ∧ ψ'.shape = ψ.shape ∧ ψ'.rule = ψ.rule ∧
      ∃ A B, s[o]? = some A ∧ s[o + 1]? = some B ∧ ψ.rule = A.rule + B.rule ∧
        ψ.shape = [A.shape.getD 0 [], A.shape.getD 1 [], B.shape.getD 1 [], B.shape.getD 2 []] := by
  obtain ⟨A, B, W1, W2, L, Rt, Le, Re, H2, q, le, re, h2, x, l, c, k, k', c', r, N, S⟩ :=
    update_setup late Ws s0 s (fun _ => Res.ub) o hF h0 hpW hc hcW hl hr ho
  obtain ⟨A1, B1, V1, V2, L1, R1, Le1, Re1, H1, N1, g1, g2, g3, g4, hh⟩ := h
  obtain ⟨e1, e2, e3, e4, e5, e6⟩ := hh (max N N1) (by omega)
  obtain ⟨f1, f2, f3, f4, f5⟩ := S.runs (max N N1) (by omega)
  rw [S.gA] at g1; cases g1
  rw [S.gB] at g2; cases g2
  rw [S.gW1] at g3; cases g3
  rw [S.gW2] at g4; cases g4
  rw [f1] at e1; cases e1
  rw [f2] at e2; cases e2
  rw [f3] at e3; cases e3
  rw [f4] at e4; cases e4
  rw [f5] at e5; cases e5
  obtain ⟨N2, t, z, m1, m2, m3, m4, m5⟩ := S.fit.times
  have e7 := (hh (max N2 N1) (by omega)).2.2.2.2.2
  rw [m1 _ (by omega)] at e7
  cases e7
  refine ⟨x, z, ⟨denseOf A, denseOf B, denseOf W1, denseOf W2, le, re, h2, by simp [S.gA], by simp [S.gB], by simp [S.gW1], by simp [S.gW2],
    S.dq, S.dl, S.dr, S.dh, m2⟩, S.fit.rθ, m5, m3, m4, A, B, S.gA, S.gB, S.rq, ?_⟩
  rw [S.sq, S.dA, S.dB]
  rfl

/-- From the new two-site tensor to the new chain. -/
theorem fresh_of_update [AddCommGroup G] [LinearOrder G] {late : Bool} {Ws s0 s : List (BT G 𝕜)} {fac : Blk 𝕜 → Blk 𝕜 × Blk 𝕜 × Blk 𝕜}
    (hfac : SvdSizes fac) (hprod : SvdProduct fac) (horth : SvdOrtho fac) (hreal : SvdReal fac) {o : Nat}
    {A B W1 W2 L Rt Le Re H2 q : BT G 𝕜} {le re h2 ψ : Blk 𝕜} {l c k k' c' r : Dim G} {N : Nat}
    (S : Setup late Ws s0 s (fun t => svdSplit fac t 2) o A B W1 W2 L Rt Le Re H2 q le re h2 ψ l c k k' c' r N)
    (hF : BlockFit s Ws s) (hc : Closed (s.map denseOf)) (hn : normSq (s.map denseOf) = 1)
    (hsm : ((A.shape.take 2).map List.length).prod < 2 ^ 63) {N5 : Nat} {fe : List Nat → ℝ} {t : BT G 𝕜} {θ : Blk 𝕜}
    (a1 : ∀ fuel, N5 ≤ fuel → twoSitesUpdateB fuel q H2 Le Re = some (.ok (sc fe, t))) (a3 : t.shape = q.shape) (a4 : t.rule = q.rule)
    (a5 : Rep t θ) (a6 : t.blocks ≠ []) (t3 : ‖DM.toV [dimSize l, dimSize c, dimSize c', dimSize r] θ‖ = 1) (fwd : Bool) :
    ∃ A' B' b, (bDmrg late Ws (fun t => svdSplit fac t 2) s0).fresh o fwd s = .ok (fe [], (s.set o A').set (o + 1) B') ∧
      BlockFit ((s.set o A').set (o + 1) B') Ws ((s.set o A').set (o + 1) B') ∧ SameOuter s ((s.set o A').set (o + 1) B') ∧
      ((s.set o A').set (o + 1) B').map denseOf = ((s.map denseOf).set o (denseOf A')).set (o + 1) (denseOf B') ∧
      (denseOf A').dims = [dimSize l, dimSize c, b] ∧ (denseOf B').dims = [b, dimSize c', dimSize r] ∧
      (∀ x y y' z, x < dimSize l → y < dimSize c → y' < dimSize c' → z < dimSize r →
        θ.f [x, y, y', z] = ∑ m ∈ range b, (denseOf A').f [x, y, m] * (denseOf B').f [m, y', z]) ∧
      (fwd = true → LeftOrth (denseOf A')) ∧ (fwd = false → RightOrth (denseOf B')) := by
  have hnz := nonZero_of_normSq hc hn
  obtain ⟨-, zA⟩ := pos_of_site hF.ket hnz S.gA
  obtain ⟨-, zB⟩ := pos_of_site hF.ket hnz S.gB
  have dA := S.dA
  have dB := S.dB
  rw [S.sq] at a3
  obtain ⟨A', B', b, b1, b2, b3, b4, b5, b6, b7, b8, b9⟩ := new_sitesB fac hfac hprod horth hreal a5 a3 a6
    (by
      rw [a3]
      intro x hx
      simp at hx
      rcases hx with rfl | rfl | rfl | rfl
      · exact zA _ (by rw [dA]; simp)
      · exact zA _ (by rw [dA]; simp)
      · exact zB _ (by rw [dB]; simp)
      · exact zB _ (by rw [dB]; simp))
    (by rw [dA] at hsm; simpa using hsm) t3 fwd fe
  have hupd : (bDmrg late Ws (fun t => svdSplit fac t 2) s0).upd fwd o ((bDmrg late Ws (fun t => svdSplit fac t 2) s0).left s o)
      ((bDmrg late Ws (fun t => svdSplit fac t 2) s0).right s (o + 2)) A B = .ok (fe [], A', B') := by
    rw [S.left, S.right]
    refine settle_eq (N := max N N5) fun fuel hf => ?_
    obtain ⟨y1, y2, y3, y4, y5⟩ := S.runs fuel (by omega)
    rw [← b1]
    unfold updB
    rw [y2, S.gW1, S.gW2]
    simp only [andThen, andNext, orUb]
    rw [y5]
    simp only
    rw [a1 fuel (by omega)]
  obtain ⟨k1, k2⟩ := pair_replaceB S.gA S.gB hF.ket dA dB b2 b3 (opposite_flipped b) b4 b5 (b6.trans (a4.trans S.rq))
  refine ⟨A', B', dimSize b, ?_, BlockFit.replace hF k1 k2, k2, by rw [List.map_set, List.map_set], by rw [denseOf_dims, b2]; rfl,
    by rw [denseOf_dims, b3, ← dimSize_flipped b]; rfl, b7, b8, b9⟩
  unfold Dmrg.fresh
  rw [S.gA, S.gB]
  simp only [hupd]
  rfl

/-- **C81** (partial: besides the cases left out by C73, the two-site tensor and its product with the effective Hamiltonian must
store a common block, and no block of the product may come before all blocks of the tensor, see `C81_disjoint_fails`).
One update of the block DMRG, at any pair of sites of any block chain with ends of size one in canonical form around the
pair, for any hermitian Hamiltonian that is a block chain leaving the charge unchanged, with an SVD that does not truncate:
it succeeds; the new chain conserves the charge rules, with the same outer dimensions and total rule; it has norm one; the
energy returned is the expectation value of the whole Hamiltonian in the whole new state; it is not above the previous one,
and below it unless the two-site tensor was an eigenvector; it is the lowest among the combinations of the two-site tensor
and its product with the effective Hamiltonian; and the orthogonality center is where the sweep goes on. -/
theorem C81_update_partial [AddCommGroup G] [LinearOrder G] (late : Bool) (Ws s0 s : List (BT G 𝕜))
    (fac : Blk 𝕜 → Blk 𝕜 × Blk 𝕜 × Blk 𝕜) (hfac : SvdSizes fac) (hprod : SvdProduct fac) (horth : SvdOrtho fac) (hreal : SvdReal fac)
    (o : Nat) (fwd : Bool) (hF : BlockFit s Ws s) (h0 : StartChain s0 s) (hpW : AllPositive Ws)
    (hc : Closed (s.map denseOf)) (hcW : Closed (Ws.map denseOf))
    (hl : late = false ∨ chargeAt (leftDim Ws) 0 = 0 ∧ chargeAt (rightDim Ws) 0 = 0) (hr : Neutral Ws)
    (hH : HermitianOp (Ws.map denseOf) (phys (s.map denseOf))) (ho : o + 1 < s.length)
    (hcan : PairCanonical (s.map denseOf) o) (hn : normSq (s.map denseOf) = 1) (hreg : DM.Regular (Ws.map denseOf) (s.map denseOf) o)
    (hsh : ∀ ψ ψ', BlockPair late Ws s0 s o ψ ψ' → Shared ψ ψ')
    (hsm : ∀ A, s[o]? = some A → ((A.shape.take 2).map List.length).prod < 2 ^ 63) :
    ∃ E s', (bDmrg late Ws (fun t => svdSplit fac t 2) s0).fresh o fwd s = .ok (E, s') ∧ BlockFit s' Ws s' ∧ SameOuter s s' ∧
      Closed (s'.map denseOf) ∧ Canonical (s'.map denseOf) (if fwd then o + 1 else o) ∧ normSq (s'.map denseOf) = 1 ∧
      E = energy (Ws.map denseOf) (s'.map denseOf) ∧ E ≤ energy (Ws.map denseOf) (s.map denseOf) ∧
      ((∃ ψ ψ', DM.PairTensors (Ws.map denseOf) (s.map denseOf) o ψ ψ' ∧
          DM.Improvable ψ ψ' (energy (Ws.map denseOf) (s.map denseOf))) → E < energy (Ws.map denseOf) (s.map denseOf)) ∧
      (∀ ψ ψ', DM.PairTensors (Ws.map denseOf) (s.map denseOf) o ψ ψ' → ∀ (x y : 𝕜) (θ : Blk 𝕜), θ.dims = ψ.dims →
        (∀ o ∈ configs ψ.dims, θ.f o = x * ψ.f o + y * ψ'.f o) →
        E * ∑ σ ∈ configs (phys (s.map denseOf)),
            ‖pairAmp ((s.map denseOf).take o) θ ((s.map denseOf).drop (o + 2)) σ 0 0‖ ^ 2
          ≤ RCLike.re (pairSandwich ((s.map denseOf).take o) θ θ ((s.map denseOf).drop (o + 2)) (Ws.map denseOf)
              (phys (s.map denseOf)) 0 0 0 0 0 0)) := by
  obtain ⟨A, B, W1, W2, le, re, h2, ψ, E, θ, n, i, m, j, n', gA, gB, gW1, gW2, i1, i2, i3, hψ, t1, hA, hB, t2, t3, u4, u5, u6, hnew⟩ :=
    DM.update_core (Ws.map denseOf) (s.map denseOf) o (fit_dense hF) hc hcW hH (by simpa using ho) hcan hn hreg
  obtain ⟨A0, B0, V1, V2, L, Rt, Le, Re, H2, q, le', re', h2', ψ', l, c, k, k', c', r, N, S⟩ :=
    update_setup late Ws s0 s (fun t => svdSplit fac t 2) o hF h0 hpW hc hcW hl hr ho
  rw [List.getElem?_map] at gA gB gW1 gW2
  rw [S.gA] at gA; cases gA
  rw [S.gB] at gB; cases gB
  rw [S.gW1] at gW1; cases gW1
  rw [S.gW2] at gW2; cases gW2
  rw [S.dl] at i1; cases i1
  rw [S.dr] at i2; cases i2
  rw [S.dh] at i3; cases i3
  rw [S.dq] at hψ; cases hψ
  have dA := S.dA
  have dB := S.dB
  rw [denseOf_dims, dA] at hA
  rw [denseOf_dims, dB] at hB
  obtain ⟨rfl, rfl, rfl⟩ : dimSize l = n ∧ dimSize c = i ∧ dimSize k = m := by simpa using hA
  obtain ⟨-, rfl, rfl⟩ : dimSize k' = dimSize k ∧ dimSize c' = j ∧ dimSize r = n' := by simpa using hB
  obtain ⟨N5, fe, t, a1, a2, a3, a4, a5, a6⟩ := twoSitesUpdateB_ok S.fit (by
    intro M ψ' hψ'
    refine hsh q ψ' ⟨A0, B0, V1, V2, L, Rt, Le, Re, H2, max M N, S.gA, S.gB, S.gW1, S.gW2, fun fuel hf => ?_⟩
    obtain ⟨y1, y2, y3, y4, y5⟩ := S.runs fuel (by omega)
    exact ⟨y1, y2, y3, y4, y5, hψ' fuel (by omega)⟩) t1
  obtain ⟨A', B', b, b1, b2, b3, b4, b5, b6, b7, b8, b9⟩ := fresh_of_update hfac hprod horth hreal S hF hc hn (hsm A0 S.gA) a1 a3 a4 a5 a6 t3 fwd
  obtain ⟨z1, z2, z3, z4, z5, z6⟩ := hnew (denseOf A') (denseOf B') b fwd b5 b6 b7 b8 b9
  rw [← b4] at z2 z4 z5 z6
  rw [a2] at b1
  exact ⟨E, (s.set o A').set (o + 1) B', b1, b2, b3, z2, z4, z5, z6, u4, u5, u6⟩

end QuantiT.BN
