import Verif.Lemmas.BlockDmrg5
import Verif.Props.Update
/-
The two-site update of block tensors when the two-site tensor and its product with the Hamiltonian store no common block.
-/
namespace QuantiT.BN
open Spec BT MP Finset
variable {G 𝕜 : Type} [RCLike 𝕜]

theorem op_noSc [AddCommGroup G] [DecidableEq G] {R : Type} (op : R → R → R) (t : BT G R) :
    broadcastOp op t (noSc : BT G R) = .ok ⟨t.shape, t.rule, []⟩ := by
  unfold broadcastOp
  have hle : (noSc : BT G R).shape.length ≤ t.shape.length := Nat.zero_le _
  have hsc : shapeCompute t (noSc : BT G R) = .ok ([], t.shape, t.rule) := by
    simp [shapeCompute, noSc, bind, Except.bind, pure, Except.pure]
  simp only [hle, decide_true, if_true, hsc, bind, Except.bind]
  simp only [noSc, List.flatMap_nil, List.foldlM_nil, pure, Except.pure]
  exact mkChecked_ok (bl := []) (by simp)

theorem rep_add_empty [AddCommGroup G] [DecidableEq G] {a : BT G 𝕜} {x : Blk 𝕜} (ha : Rep a x) (α : 𝕜) :
    ∃ r, add a ⟨a.shape, a.rule, []⟩ α = .ok r ∧ r.shape = a.shape ∧ r.rule = a.rule ∧ Rep r ⟨x.dims, fun o => α * x.f o⟩ := by
  obtain ⟨r, h1, h2, h3, h4, h5⟩ := C21_add_exact_partial a ⟨a.shape, a.rule, []⟩ α ha.1.1 ⟨.nil, by intro k b h; simp at h⟩ rfl rfl
  refine ⟨r, h1, h2, h3, ⟨h4, by rw [h2]; exact ha.1.2⟩, ?_, fun o ho => ?_⟩
  · simp only [denseOf, h2]; exact ha.2.1
  · simp only [denseOf, h2] at ho
    obtain ⟨⟨k, c⟩, hl⟩ := locateAll_isSome.mpr ho
    have := h5 o k c hl
    rw [if_pos (by simp)] at this
    simp only [denseOf]
    rw [this, ← ha.f ho]

theorem eigCoeffs_noSc [AddCommGroup G] [DecidableEq G] (a1 b : List Nat → ℝ) :
    eigCoeffs (noSc : BT G ℝ) (sc a1) (sc b) = eigCoeffs (sc fun _ => 0 : BT G ℝ) (sc a1) (sc b) := by
  unfold eigCoeffs
  simp only [sc_add, noSc_add_sc, zero_add]

theorem eig2x2B_noSc [AddCommGroup G] [DecidableEq G] (fuel : Nat) (a1 b : List Nat → ℝ) :
    eig2x2B fuel (noSc : BT G ℝ) (sc a1) (sc b) = eig2x2B fuel (sc fun _ => 0 : BT G ℝ) (sc a1) (sc b) := by
  unfold eig2x2B
  rw [eigCoeffs_noSc]

/-- Without both diagonal entries, the coefficient of the old state is zero. -/
theorem eig2x2B_none [AddCommGroup G] [DecidableEq G] (b : List Nat → ℝ) (hb : 0 < b []) :
    ∃ fe fo fn, (∀ fuel, 1 ≤ fuel → eig2x2B fuel (noSc : BT G ℝ) noSc (sc b) = some (.ok (sc fe, sc fo, sc fn))) ∧
      fe [] = -b [] ∧ fo [] = 0 ∧ fn [] = 1 := by
  have h4 : √(4 * (b [] * b [])) = 2 * b [] := by
    rw [show (4 : ℝ) * (b [] * b []) = (2 * b []) ^ 2 by ring]
    exact Real.sqrt_sq (by linarith)
  obtain ⟨fe, fo, fn, Z, h1, h2, hz⟩ : ∃ fe fo fn Z, eigCoeffs (noSc : BT G ℝ) noSc (sc b) = .ok (sc fe, sc fo, sc fn, Z) ∧ fe [] = -b [] ∧ Z := by
    unfold eigCoeffs
    simp only [noSc_add_noSc, noSc_add_sc, sc_add_noSc, sc_conj, sc_map, sc_scale, mul, sc_op, bind, Except.bind, numB, sc_addNan, sc_itemNan, noSc_map]
    refine ⟨_, _, _, _, rfl, ?_, ?_⟩
    · simp only [id_eq, one_mul]
      rw [h4]
      ring
    · right
      simp only [id_eq, one_mul, neg_mul]
      rw [h4]
      have h0 : (-(-(2 * b []) / 2)) / -(2 * b []) < 0 := by
        have : (-(-(2 * b []) / 2)) / -(2 * b []) = -(1 / 2) := by field_simp
        rw [this]; norm_num
      have hne : -(2 * b []) ≠ 0 := by linarith
      simp only [neg_div, neg_neg, div_neg] at h0
      simp [lift2, DM.fdiv, hne, DM.fsqrt]
      rw [neg_div, neg_div]
      linarith
  refine ⟨fe, fun _ => 0, fun _ => 1, fun fuel hf => ?_, h2, rfl, rfl⟩
  unfold eig2x2B
  rw [h1]
  simp only [andNext, andThen, if_pos hz, filledLike_sc _ hf, sc_nanFound, Option.isNone_some, Bool.false_eq_true, if_false, sc_map,
    Option.getD_some]

theorem key_of_norm [AddCommGroup G] {t : BT G 𝕜} {x : Blk 𝕜} (h : Rep t x) {ds : List Nat} (hd : x.dims = ds) (hn : 0 < ‖DM.toV ds x‖) :
    ∃ k, HasKey t k := by
  by_contra hc
  have hb : t.blocks = [] := by
    cases hb : t.blocks with
    | nil => rfl
    | cons y l => exact absurd ⟨y.1, y.2, by rw [hb]; simp⟩ hc
  have : ‖DM.toV ds x‖ ^ 2 = 0 := by
    rw [DM.norm_toV]
    refine sum_eq_zero fun o ho => ?_
    rw [mem_configs, ← hd, h.dims] at ho
    rw [h.f ho, hb]
    have : entry t.shape [] o = (0 : 𝕜) := by
      unfold entry
      split <;> rfl
    rw [this]
    simp
  nlinarith

theorem eig2x2_disjoint (a1 b : ℝ) (hb : 0 < b) : ∃ E o n, DM.eig2x2 0 a1 b = .ok (E, o, n) ∧ o ^ 2 + n ^ 2 = 1 ∧
    E < n ^ 2 * a1 - 2 * o * n * b := by
  obtain ⟨E, o, n, h1, h2, h3, h4, -, -⟩ := DM.C53_lowest 0 a1 b
  refine ⟨E, o, n, h1, h2, ?_⟩
  obtain ⟨-, g2⟩ := DM.eig2x2_eq 0 a1 b
  rw [zero_sub, zero_add, neg_sq] at g2
  have hc : |a1| < √(a1 ^ 2 + 4 * (b * b)) := by
    apply Real.lt_sqrt_of_sq_lt
    rw [sq_abs]
    nlinarith [mul_pos hb hb]
  have hlt : (a1 - √(a1 ^ 2 + 4 * (b * b))) / 2 - a1 < 0 := by
    have := neg_abs_le a1
    linarith
  obtain ⟨g3, -, g4⟩ := g2 hlt.ne
  rw [h1] at g4
  obtain ⟨e1, e2, e3⟩ : E = _ ∧ o = _ ∧ n = _ := by simpa using g4
  have ho : 0 < o := by
    rw [e2]
    refine Real.sqrt_pos.2 (div_pos_of_neg_of_neg hlt (by linarith))
  have hn : n < 0 := by
    rw [e3, ← e2]
    exact div_neg_of_pos_of_neg (mul_pos hb ho) hlt
  have hE : E = 2 * b * o * n + a1 * n ^ 2 := by linear_combination (-E) * h2 - o * h3 - n * h4
  have : o * n * b < 0 := mul_neg_of_neg_of_pos (mul_neg_of_pos_of_neg ho hn) hb
  rw [hE]
  linarith

theorem disjoint_vec {V : Type} [NormedAddCommGroup V] [InnerProductSpace 𝕜 V] {T : V →ₗ[𝕜] V} (hT : T.IsSymmetric) {v w : V} {B : ℝ} (hv : ‖v‖ = 1)
    (h0 : RCLike.re (inner 𝕜 v (T v)) = 0) (hB : ‖T v‖ = B) (hp : 0 < B) (hw : w = ((-B⁻¹ : ℝ) : 𝕜) • T v) {o n : ℝ} (h1 : o ^ 2 + n ^ 2 = 1) :
    ‖(o : 𝕜) • v + (n : 𝕜) • w‖ = 1 ∧ RCLike.re (inner 𝕜 ((o : 𝕜) • v + (n : 𝕜) • w) (T ((o : 𝕜) • v + (n : 𝕜) • w)))
      = n ^ 2 * RCLike.re (inner 𝕜 w (T w)) - 2 * o * n * B := by
  have hre : inner 𝕜 v (T v) = 0 := by
    have : ((RCLike.re (inner 𝕜 v (T v)) : ℝ) : 𝕜) = inner 𝕜 v (T v) := RCLike.conj_eq_iff_re.1 (by rw [inner_conj_symm]; exact hT v v)
    rw [← this, h0]; simp
  have hvw : inner 𝕜 v w = 0 := by rw [hw, inner_smul_right, hre, mul_zero]
  have hwv : inner 𝕜 w v = 0 := by rw [← inner_conj_symm, hvw, map_zero]
  have hww : ‖w‖ = 1 := by
    rw [hw, norm_smul, hB]
    simp
    rw [abs_of_pos hp]
    field_simp
  have hwT : inner 𝕜 w (T v) = ((-B : ℝ) : 𝕜) := by
    rw [hw, inner_smul_left, inner_self_eq_norm_sq_to_K, hB]
    simp
    field_simp
  have hvT : inner 𝕜 v (T w) = ((-B : ℝ) : 𝕜) := by
    rw [← hT v w, ← inner_conj_symm, hwT, RCLike.conj_ofReal]
  constructor
  · have : ‖(o : 𝕜) • v + (n : 𝕜) • w‖ ^ 2 = 1 := by
      rw [@norm_add_sq 𝕜, inner_smul_left, inner_smul_right, hvw, norm_smul, norm_smul, hv, hww]
      simp
      exact h1
    exact (pow_eq_one_iff_of_nonneg (norm_nonneg _) (by norm_num)).1 this
  · rw [map_add, map_smul, map_smul, inner_add_left, inner_add_right, inner_add_right]
    simp only [inner_smul_left, inner_smul_right, hre, hwT, hvT, RCLike.conj_ofReal]
    generalize inner 𝕜 w (T w) = e
    simp only [map_add, RCLike.re_ofReal_mul, RCLike.ofReal_re, map_zero]
    ring

open Classical in
/-- The update when the two-site tensor and its product with the Hamiltonian store no common block: the energy returned is below
the one of the tensor returned. -/
theorem disjoint_update [AddCommGroup G] [LinearOrder G] {θ H L Rt : BT G 𝕜} {x h l r : Blk 𝕜} {t0 t1 t2 t3 : Dim G} (f : UpdateFit θ H L Rt x h l r t0 t1 t2 t3)
    {n i j n' : Nat} {T : DM.Vec 𝕜 [n, i, j, n'] →ₗ[𝕜] DM.Vec 𝕜 [n, i, j, n']} (hx : x.dims = [n, i, j, n'])
    (hT : ∀ θ : Blk 𝕜, θ.dims = [n, i, j, n'] → ∃ θ', MP.hamil2site θ h l r = .ok θ' ∧ θ'.dims = [n, i, j, n'] ∧
        DM.toV [n, i, j, n'] θ' = T (DM.toV [n, i, j, n'] θ)) (hsym : T.IsSymmetric) (hv : ‖DM.toV [n, i, j, n'] x‖ = 1)
    (hdis : ∀ N ψ', (∀ fuel, N ≤ fuel → hamil2site fuel θ H L Rt = some (.ok ψ')) → ∀ k, HasKey θ k → ¬ HasKey ψ' k)
    (hb : (1e-15 : ℝ) ≤ ‖T (DM.toV [n, i, j, n'] x)‖) :
    ∃ N fe t z, (∀ fuel, N ≤ fuel → twoSitesUpdateB fuel θ H L Rt = some (.ok (sc fe, t))) ∧ t.shape = θ.shape ∧ t.rule = θ.rule ∧
      Rep t z ∧ t.blocks ≠ [] ∧ z.dims = [n, i, j, n'] ∧ ‖DM.toV [n, i, j, n'] z‖ = 1 ∧
      fe [] < RCLike.re (inner 𝕜 (DM.toV [n, i, j, n'] z) (T (DM.toV [n, i, j, n'] z))) := by
  obtain ⟨N1, q, y, a1, a2, a3, a4, a5⟩ := f.times
  obtain ⟨y0, i1, i2, i3⟩ := hT x hx
  rw [a2] at i1; cases i1
  have hpos : (0 : ℝ) < 1e-15 := by norm_num
  obtain ⟨kq, hkq⟩ := key_of_norm a5 i2 (by rw [i3]; linarith)
  -- a0
  obtain ⟨N2, b1, b2⟩ : ∃ N, (∀ fuel, N ≤ fuel → dot4B fuel q (conj star θ) = some (.ok (noSc : BT G ℝ))) ∧ DM.dot4 y (MP.conjBlk star x) = .ok 0 := by
    rcases dot4B_cases a5 (rep_conj (star_zero 𝕜) f.rθ) (a3.trans f.sθ) (conj_shape4 f.sθ) (opposite_flipped _) (opposite_flipped _) (opposite_flipped _)
      (opposite_flipped _) (by show q.rule + -θ.rule = 0; rw [a4, add_neg_cancel]) with ⟨k, k1, k2, _⟩ | ⟨_, hh⟩
    · exact absurd k1 (hdis N1 q a1 k ((hasKey_conj _ _ _).1 k2))
    · exact hh
  rw [DM.dot4_inner rfl i2 hx, i3] at b2
  have hvy : RCLike.re (inner 𝕜 (DM.toV [n, i, j, n'] x) (T (DM.toV [n, i, j, n'] x))) = 0 := Except.ok.inj b2
  have c1 := op_noSc (· * ·) θ
  obtain ⟨q2, d1, d2, d3, d4⟩ := rep_add_empty a5 (-1)
  have e0 : (⟨q.shape, q.rule, []⟩ : BT G 𝕜) = ⟨θ.shape, θ.rule, []⟩ := by rw [a3, a4]
  rw [e0] at d1
  have dk := hasKey_add a5.1.1.sorted (b := (⟨θ.shape, θ.rule, []⟩ : BT G 𝕜)) .nil d1
  have kq2 : HasKey q2 kq := (dk kq).2 (.inl hkq)
  have s2 : q2.shape = θ.shape := d2.trans a3
  have r2 : q2.rule = θ.rule := d3.trans a4
  obtain ⟨N3, fb2, e1, e2⟩ := dot_conj d4 d4 (s2.trans f.sθ) (s2.trans f.sθ) rfl kq2 kq2
  have vq2 : DM.toV [n, i, j, n'] ⟨y.dims, fun o => -1 * y.f o⟩ = -(T (DM.toV [n, i, j, n'] x)) := by
    rw [← i3]
    ext o
    show -1 * y.f o.1 = -(y.f o.1)
    ring
  rw [DM.dot4_inner (ds := [n, i, j, n']) rfl (by exact i2) (by exact i2), vq2, inner_neg_neg, inner_self_eq_norm_sq_to_K] at e2
  have hb2 : fb2 [] = ‖T (DM.toV [n, i, j, n'] x)‖ ^ 2 := by
    have := Except.ok.inj e2
    rw [← this]
    norm_cast
  generalize hB : ‖T (DM.toV [n, i, j, n'] x)‖ = B at *
  have hsq : √(fb2 []) = B := by rw [hb2]; exact Real.sqrt_sq (by linarith)
  have hBpos : 0 < B := by linarith
  -- division
  have g1 : (if (if (1e-15 : ℝ) ≤ |√(fb2 [])| then (1 : Nat) else 0) ≠ 0 then broadcastInPlace (· / ·) q2 (sc fun o => ((√(fb2 o) : ℝ) : 𝕜)) else .ok q2)
      = .ok ⟨q2.shape, q2.rule, numBlocks (fun u => u / ((√(fb2 []) : ℝ) : 𝕜)) q2.blocks⟩ := by
    rw [if_pos (by rw [abs_of_nonneg (Real.sqrt_nonneg _), hsq, if_pos hb]; simp)]
    exact inPlace_sc _ d4.1.1.sorted _
  have g5 := rep_num (φ := fun u => u / ((√(fb2 []) : ℝ) : 𝕜)) (zero_div _) d4
  generalize hp : (⟨q2.shape, q2.rule, numBlocks (fun u => u / ((√(fb2 []) : ℝ) : 𝕜)) q2.blocks⟩ : BT G 𝕜) = p at *
  have g3 : p.shape = θ.shape := by rw [← hp]; exact s2
  have g4 : p.rule = θ.rule := by rw [← hp]; exact r2
  have gk : HasKey p kq := by rw [← hp]; exact (hasKey_num _ q2 kq).2 kq2
  generalize hz : (⟨y.dims, fun o => -1 * y.f o / ((√(fb2 []) : ℝ) : 𝕜)⟩ : Blk 𝕜) = z at *
  have zd : z.dims = [n, i, j, n'] := by rw [← hz]; exact i2
  have zv : DM.toV [n, i, j, n'] z = (((-B⁻¹ : ℝ)) : 𝕜) • T (DM.toV [n, i, j, n'] x) := by
    rw [← hz, ← i3, hsq]
    ext o
    show -1 * y.f o.1 / (B : 𝕜) = ((-B⁻¹ : ℝ) : 𝕜) * y.f o.1
    push_cast
    ring
  obtain ⟨N4, q', y', m1, m2, m3, m4, m5⟩ := (f.with g5 g3).times
  obtain ⟨y0, j1, j2, j3⟩ := hT z zd
  rw [m2] at j1; cases j1
  -- the combination
  obtain ⟨N5, a, fe, fo, fn, n1, ho, hlt⟩ : ∃ N a fe fo fn, (∀ fuel, N ≤ fuel → dot4B fuel (conj star p) q' = some (.ok a) ∧
      eig2x2B fuel (noSc : BT G ℝ) a (sc fun o => √(fb2 o)) = some (.ok (sc fe, sc fo, sc fn))) ∧ fo [] ^ 2 + fn [] ^ 2 = 1 ∧
      fe [] < fn [] ^ 2 * RCLike.re (inner 𝕜 (DM.toV [n, i, j, n'] z) (T (DM.toV [n, i, j, n'] z))) - 2 * fo [] * fn [] * B := by
    rcases dot4B_cases (rep_conj (star_zero 𝕜) g5) m5 (conj_shape4 (g3.trans f.sθ)) (m3.trans (g3.trans f.sθ)) (flipped_opposite _) (flipped_opposite _)
      (flipped_opposite _) (flipped_opposite _) (by show -p.rule + q'.rule = 0; rw [m4, neg_add_cancel]) with ⟨k, _, _, N5, f1, n1, n2⟩ | ⟨_, N5, n1, n2⟩
    · rw [DM.dot4_inner' rfl j2 zd, j3] at n2
      obtain ⟨E, o, n, p1, p2, p3⟩ := eig2x2_disjoint (f1 []) B hBpos
      obtain ⟨fe, fo, fn, w1, rfl, rfl, rfl⟩ := eig2x2B_ok (G := G) (a := fun _ => 0) (a1 := f1) (b := fun o => √(fb2 o)) (by rw [hsq]; exact p1)
      refine ⟨max N5 1, _, fe, fo, fn, fun fuel hf => ⟨n1 fuel (by omega), by rw [eig2x2B_noSc]; exact w1 fuel (by omega)⟩, p2, ?_⟩
      rw [Except.ok.inj n2]
      exact p3
    · rw [DM.dot4_inner' rfl j2 zd, j3] at n2
      obtain ⟨fe, fo, fn, w1, w2, w3, w4⟩ := eig2x2B_none (G := G) (fun o => √(fb2 o)) (by rw [hsq]; exact hBpos)
      refine ⟨max N5 1, _, fe, fo, fn, fun fuel hf => ⟨n1 fuel (by omega), w1 fuel (by omega)⟩, by rw [w3, w4]; norm_num, ?_⟩
      rw [Except.ok.inj n2, w2, w3, w4, hsq]
      linarith
  obtain ⟨v1, v2⟩ := disjoint_vec hsym hv hvy hB hBpos zv ho
  have hne : θ.shape ≠ [] := by rw [f.sθ]; simp
  have k1 := sc_op_left (· * ·) f.rθ.1.1 hne fun o => (fo o : 𝕜)
  have k2 := rep_num (φ := fun u => (fo [] : 𝕜) * u) (mul_zero _) f.rθ
  have l1 := sc_op_left (· * ·) g5.1.1 (by rw [g3]; exact hne) fun o => (fn o : 𝕜)
  have l2 := rep_num (φ := fun u => (fn [] : 𝕜) * u) (mul_zero _) g5
  obtain ⟨t, t1, t2, t3, t4⟩ := rep_add k2 l2 g3 g4 1 (.inl rfl)
  have hvz : DM.toV [n, i, j, n'] (⟨x.dims, fun o => (fo [] : 𝕜) * x.f o + 1 * ((fn [] : 𝕜) * z.f o)⟩ : Blk 𝕜)
      = (fo [] : 𝕜) • DM.toV [n, i, j, n'] x + (fn [] : 𝕜) • DM.toV [n, i, j, n'] z := by
    ext o
    show (fo [] : 𝕜) * x.f o.1 + 1 * ((fn [] : 𝕜) * z.f o.1) = (fo [] : 𝕜) * x.f o.1 + (fn [] : 𝕜) * z.f o.1
    ring
  refine ⟨max N1 (max N2 (max N3 (max N4 N5))), fe, t, ⟨x.dims, fun o => (fo [] : 𝕜) * x.f o + 1 * ((fn [] : 𝕜) * z.f o)⟩, fun fuel hf => ?_, t2, t3,
    t4, HasKey.ne_nil ((hasKey_add k2.1.1.sorted l2.1.1.sorted t1 kq).2 (.inr ((hasKey_num _ p kq).2 gk))), hx, by rw [hvz]; exact v1,
    by rw [hvz, v2]; exact hlt⟩
  obtain ⟨n2, n3⟩ := n1 fuel (by omega)
  unfold twoSitesUpdateB lanczosB
  rw [a1 fuel (by omega)]
  simp only [andThen, andNext]
  rw [b1 fuel (by omega)]
  simp only [mul, show (ofRealB (noSc : BT G ℝ) : BT G 𝕜) = noSc from rfl, c1, d1]
  rw [e1 fuel (by omega)]
  simp only [sc_map, sc_item]
  rw [ofRealB_sc, g1]
  simp only
  rw [m1 fuel (by omega)]
  simp only
  rw [n2]
  simp only
  rw [n3]
  simp only [ofRealB_sc, k1, l1, t1]

end QuantiT.BN
