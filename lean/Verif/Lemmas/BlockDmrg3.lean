import Verif.Lemmas.BlockDmrg2
import Verif.Spec.BlockDmrg
/-
The two-site update of block tensors computes the dense one.
-/
namespace QuantiT.BN
open Spec BT
variable {G 𝕜 : Type} [RCLike 𝕜] [AddCommGroup G] [DecidableEq G]

theorem ofRealB_sc (f : List Nat → ℝ) : (ofRealB (sc f : BT G ℝ) : BT G 𝕜) = sc fun o => (f o : 𝕜) := rfl

/-- Adding two block tensors of the same shape and rule, when no block of the first comes before all of the second or the factor is
one. -/
theorem rep_add {a b : BT G 𝕜} {x y : Blk 𝕜} (ha : Rep a x) (hb : Rep b y) (hsh : b.shape = a.shape) (hr : b.rule = a.rule) (α : 𝕜)
    (hf : α = 1 ∨ ∀ x ∈ a.blocks, ∃ y ∈ b.blocks, y.1 ≤ x.1) :
    ∃ r, add a b α = .ok r ∧ r.shape = a.shape ∧ r.rule = a.rule ∧ Rep r ⟨x.dims, fun o => x.f o + α * y.f o⟩ := by
  have key : ∃ r, add a b α = .ok r ∧ r.shape = a.shape ∧ r.rule = a.rule ∧ Conserving r.shape r.rule r.blocks ∧
      ∀ e, InRange e (a.shape.map dimSize) → entry r.shape r.blocks e = entry a.shape a.blocks e + α * entry b.shape b.blocks e := by
    rcases hf with rfl | hf
    · exact C21_add_one_partial a b ha.1.1 hb.1.1 hsh.symm hr.symm
    · exact C21_add_partial a b α ha.1.1 hb.1.1 hsh.symm hr.symm hf
  obtain ⟨r, h1, h2, h3, h4, h5⟩ := key
  refine ⟨r, h1, h2, h3, ⟨h4, by rw [h2]; exact ha.1.2⟩, ?_, fun o ho => ?_⟩
  · simp only [denseOf, h2]; exact ha.2.1
  · simp only [denseOf, h2] at ho
    have := h5 o ho
    simp only [denseOf]
    rw [this, ← ha.f ho, ← hb.f (by rw [hsh]; exact ho)]

/-- What both versions of the update need to know about the tensors. -/
structure UpdateFit (θ H L Rt : BT G 𝕜) (x h l r : Blk 𝕜) (t0 t1 t2 t3 : Dim G) : Prop where
  rθ : Rep θ x
  rH : Rep H h
  rL : Rep L l
  rR : Rep Rt r
  sθ : θ.shape = [t0, t1, t2, t3]
  sL : ∃ l0 l1, L.shape = [l0, l1, t0] ∧ Opposite l0 t0 ∧ ∃ r0 r1, Rt.shape = [r0, r1, t3] ∧ Opposite t3 r0 ∧
    ∃ u0 v2 u3 v3, H.shape = [u0, t1, t2, v2, u3, v3] ∧ Opposite l1 u0 ∧ Opposite t1 u3 ∧ Opposite t2 v3 ∧ Opposite v2 r1
  rule : L.rule + H.rule + Rt.rule = 0

theorem UpdateFit.with {θ θ' H L Rt : BT G 𝕜} {x x' h l r : Blk 𝕜} {t0 t1 t2 t3 : Dim G} (f : UpdateFit θ H L Rt x h l r t0 t1 t2 t3)
    (h' : Rep θ' x') (hs : θ'.shape = θ.shape) : UpdateFit θ' H L Rt x' h l r t0 t1 t2 t3 :=
  ⟨h', f.rH, f.rL, f.rR, hs.trans f.sθ, f.sL, f.rule⟩

theorem UpdateFit.times {θ H L Rt : BT G 𝕜} {x h l r : Blk 𝕜} {t0 t1 t2 t3 : Dim G} (f : UpdateFit θ H L Rt x h l r t0 t1 t2 t3) :
    ∃ N t z, (∀ fuel, N ≤ fuel → hamil2site fuel θ H L Rt = some (.ok t)) ∧ MP.hamil2site x h l r = .ok z ∧ t.shape = θ.shape ∧
      t.rule = θ.rule ∧ Rep t z := by
  obtain ⟨l0, l1, sL, o0, r0, r1, sR, o4, u0, v2, u3, v3, sH, o1, o2, o3, o5⟩ := f.sL
  obtain ⟨N, t, z, h1, h2, h3, h4, h5⟩ := runs_hamil2site f.rθ f.rH f.rL f.rR sL sR f.sθ sH o0 o1 o2 o3 o4 o5
  refine ⟨N, t, z, h1, h2, h3.trans f.sθ.symm, ?_, h5⟩
  rw [h4]
  have := f.rule
  calc L.rule + θ.rule + H.rule + Rt.rule = θ.rule + (L.rule + H.rule + Rt.rule) := by abel
    _ = θ.rule := by rw [this, add_zero]

theorem UpdateFit.keys {θ θ' H L Rt t t' : BT G 𝕜} {x x' h l r : Blk 𝕜} {t0 t1 t2 t3 : Dim G} (f : UpdateFit θ H L Rt x h l r t0 t1 t2 t3)
    (f' : UpdateFit θ' H L Rt x' h l r t0 t1 t2 t3) {N N' : Nat}
    (h1 : ∀ fuel, N ≤ fuel → hamil2site fuel θ H L Rt = some (.ok t)) (h2 : ∀ fuel, N' ≤ fuel → hamil2site fuel θ' H L Rt = some (.ok t'))
    (hk : ∀ k, HasKey θ k → HasKey θ' k) (k : List Nat) (hkt : HasKey t k) : HasKey t' k := by
  obtain ⟨l0, l1, sL, o0, r0, r1, sR, o4, u0, v2, u3, v3, sH, o1, o2, o3, o5⟩ := f.sL
  exact hasKey_hamil2site f.rθ.1 f'.rθ.1 f.rH.1 f.rL.1 f.rR.1 sL sR f.sθ f'.sθ sH o0 o1 o2 o3 o4 o5 h1 h2 hk k hkt

theorem conj_shape4 {t : BT G 𝕜} {t0 t1 t2 t3 : Dim G} (h : t.shape = [t0, t1, t2, t3]) :
    (conj star t).shape = [flipped t0, flipped t1, flipped t2, flipped t3] := by rw [conj_shape, h]; rfl

theorem dot_conj {t t' : BT G 𝕜} {z z' : Blk 𝕜} (h : Rep t z) (h' : Rep t' z') {t0 t1 t2 t3 : Dim G}
    (sh : t.shape = [t0, t1, t2, t3]) (sh' : t'.shape = [t0, t1, t2, t3]) (hr : t.rule = t'.rule) {k : List Nat} (hk : HasKey t k) (hk' : HasKey t' k) :
    ∃ N f, (∀ fuel, N ≤ fuel → dot4B fuel t (conj star t') = some (.ok (sc f))) ∧ DM.dot4 z (MP.conjBlk star z') = .ok (f []) :=
  dot4B_ok h (rep_conj (star_zero 𝕜) h') sh (conj_shape4 sh') (opposite_flipped _) (opposite_flipped _) (opposite_flipped _)
    (opposite_flipped _) (by show t.rule + -t'.rule = 0; rw [hr, add_neg_cancel]) hk ((hasKey_conj _ _ _).2 hk')

theorem conj_dot {t t' : BT G 𝕜} {z z' : Blk 𝕜} (h : Rep t z) (h' : Rep t' z') {t0 t1 t2 t3 : Dim G}
    (sh : t.shape = [t0, t1, t2, t3]) (sh' : t'.shape = [t0, t1, t2, t3]) (hr : t.rule = t'.rule) {k : List Nat} (hk : HasKey t k) (hk' : HasKey t' k) :
    ∃ N f, (∀ fuel, N ≤ fuel → dot4B fuel (conj star t) t' = some (.ok (sc f))) ∧ DM.dot4 (MP.conjBlk star z) z' = .ok (f []) :=
  dot4B_ok (rep_conj (star_zero 𝕜) h) h' (conj_shape4 sh) sh' (flipped_opposite _) (flipped_opposite _) (flipped_opposite _)
    (flipped_opposite _) (by show -t.rule + t'.rule = 0; rw [hr, neg_add_cancel]) ((hasKey_conj _ _ _).2 hk) hk'

open Classical in
/-- The Lanczos step of block tensors is the one of the dense tensors. -/
theorem lanczosB_ok {θ H L Rt : BT G 𝕜} {x h l r : Blk 𝕜} {t0 t1 t2 t3 : Dim G} (f : UpdateFit θ H L Rt x h l r t0 t1 t2 t3)
    (hsh : ∀ N ψ', (∀ fuel, N ≤ fuel → hamil2site fuel θ H L Rt = some (.ok ψ')) → Shared θ ψ') :
    ∃ N p z f0 f1 fb, (∀ fuel, N ≤ fuel → lanczosB fuel θ H L Rt = some (.ok (p, sc f0, sc f1, sc fb))) ∧
      DM.lanczosBlk x h l r = .ok (z, f0 [], f1 [], fb []) ∧ p.shape = θ.shape ∧ p.rule = θ.rule ∧ Rep p z := by
  obtain ⟨N1, q, y, a1, a2, a3, a4, a5⟩ := f.times
  have S := hsh N1 q a1
  obtain ⟨k, v, v', hk, hk'⟩ := S.common
  have kθ : HasKey θ k := ⟨v, hk⟩
  have kq : HasKey q k := ⟨v', hk'⟩
  obtain ⟨N2, f0, b1, b2⟩ := dot_conj a5 f.rθ (a3.trans f.sθ) f.sθ a4 kq kθ
  -- state * a0
  have c1 := op_sc (· * ·) f.rθ.1.1 fun o => (f0 o : 𝕜)
  have c2 := rep_num (φ := fun u => u * (f0 [] : 𝕜)) (zero_mul _) f.rθ
  obtain ⟨q2, d1, d2, d3, d4⟩ := rep_add a5 c2 (by exact a3.symm) (by exact a4.symm) (-1) (.inr (by
    intro e he
    obtain ⟨w, hw, hle⟩ := S.first e he
    exact ⟨_, List.mem_map.2 ⟨w, hw, rfl⟩, hle⟩))
  have dk := hasKey_add a5.1.1.sorted c2.1.1.sorted d1
  have kq2 : ∀ k, HasKey θ k → HasKey q2 k := fun k hk => (dk k).2 (.inr ((hasKey_num _ θ k).2 hk))
  have s2 : q2.shape = θ.shape := d2.trans a3
  have r2 : q2.rule = θ.rule := d3.trans a4
  obtain ⟨N3, fb2, e1, e2⟩ := dot_conj d4 d4 (s2.trans f.sθ) (s2.trans f.sθ) rfl (kq2 k kθ) (kq2 k kθ)
  have hx : y.dims = x.dims := by rw [a5.dims, a3, f.rθ.dims]
  have hsub : DM.subMul y x (f0 []) = .ok ⟨y.dims, fun o => y.f o + -1 * (x.f o * (f0 [] : 𝕜))⟩ := by
    unfold DM.subMul
    rw [if_neg (by simpa using hx)]
    congr 2
    funext o
    ring
  -- division
  obtain ⟨p, z, g1, g2, g3, g4, g5, g6⟩ : ∃ p z,
      (if (if (1e-15 : ℝ) ≤ |√(fb2 [])| then (1 : Nat) else 0) ≠ 0 then broadcastInPlace (· / ·) q2 (sc fun o => ((√(fb2 o) : ℝ) : 𝕜)) else .ok q2) = .ok p ∧
      z = (if √(fb2 []) ≥ 1e-15 then DM.divBy ⟨y.dims, fun o => y.f o + -1 * (x.f o * (f0 [] : 𝕜))⟩ (√(fb2 []))
        else ⟨y.dims, fun o => y.f o + -1 * (x.f o * (f0 [] : 𝕜))⟩) ∧ p.shape = θ.shape ∧ p.rule = θ.rule ∧ Rep p z ∧
      ∀ k, HasKey θ k → HasKey p k := by
    by_cases hb : (1e-15 : ℝ) ≤ √(fb2 [])
    · rw [if_pos (by rw [abs_of_nonneg (Real.sqrt_nonneg _), if_pos hb]; simp), if_pos (by exact hb)]
      refine ⟨_, _, inPlace_sc _ d4.1.1.sorted _, rfl, s2, r2, ?_, ?_⟩
      · exact rep_num (φ := fun u => u / ((√(fb2 []) : ℝ) : 𝕜)) (zero_div _) d4
      · exact fun k hk => (hasKey_num _ q2 k).2 (kq2 k hk)
    · rw [if_neg (by rw [abs_of_nonneg (Real.sqrt_nonneg _), if_neg hb]; simp), if_neg (by exact hb)]
      exact ⟨_, _, rfl, rfl, s2, r2, d4, kq2⟩
  obtain ⟨N4, q', y', m1, m2, m3, m4, m5⟩ := (f.with g5 g3).times
  have kq' := f.keys (f.with g5 g3) a1 m1 g6 k kq
  obtain ⟨N5, f1, n1, n2⟩ := conj_dot g5 m5 (g3.trans f.sθ) (m3.trans (g3.trans f.sθ)) m4.symm (g6 k kθ) kq'
  refine ⟨max N1 (max N2 (max N3 (max N4 N5))), p, z, f0, f1, fun o => √(fb2 o), fun fuel hf => ?_, ?_, g3, g4, g5⟩
  · unfold lanczosB
    rw [a1 fuel (by omega)]
    simp only [andThen, andNext]
    rw [b1 fuel (by omega)]
    simp only [mul, ofRealB_sc, c1, d1]
    rw [e1 fuel (by omega)]
    simp only [sc_map, sc_item]
    rw [ofRealB_sc, g1]
    simp only
    rw [m1 fuel (by omega)]
    simp only
    rw [n1 fuel (by omega)]
  · unfold DM.lanczosBlk
    rw [a2]
    simp only [bind, Except.bind, b2, hsub, e2]
    rw [← g2, m2]
    simp only [n2]

/-- The update of block tensors is the one of the dense tensors. -/
theorem twoSitesUpdateB_ok {θ H L Rt : BT G 𝕜} {x h l r : Blk 𝕜} {t0 t1 t2 t3 : Dim G} (f : UpdateFit θ H L Rt x h l r t0 t1 t2 t3)
    (hsh : ∀ N ψ', (∀ fuel, N ≤ fuel → hamil2site fuel θ H L Rt = some (.ok ψ')) → Shared θ ψ') {e : ℝ} {z : Blk 𝕜}
    (hd : DM.twoSitesUpdateBlk x h l r = .ok (e, z)) :
    ∃ N fe t, (∀ fuel, N ≤ fuel → twoSitesUpdateB fuel θ H L Rt = some (.ok (sc fe, t))) ∧ fe [] = e ∧ t.shape = θ.shape ∧
      t.rule = θ.rule ∧ Rep t z ∧ t.blocks ≠ [] := by
  obtain ⟨N0, q0, y0, i1, -, -, -, -⟩ := f.times
  obtain ⟨k, v, _, hkθ, _⟩ := (hsh N0 q0 i1).common
  obtain ⟨N, p, y, f0, f1, fb, a1, a2, a3, a4, a5⟩ := lanczosB_ok f hsh
  unfold DM.twoSitesUpdateBlk at hd
  rw [a2] at hd
  simp only [bind, Except.bind] at hd
  cases he : DM.eig2x2 (f0 []) (f1 []) (fb []) with
  | error q => rw [he] at hd; cases hd
  | ok res =>
    obtain ⟨E, co, cn⟩ := res
    rw [he] at hd
    simp only at hd
    obtain ⟨fe, fo, fn, b1, rfl, rfl, rfl⟩ := eig2x2B_ok (G := G) he
    have hxy : x.dims = y.dims := by rw [f.rθ.dims, a5.dims, a3]
    rw [if_neg (by simpa using hxy)] at hd
    obtain ⟨rfl, rfl⟩ := Prod.mk.inj (Except.ok.inj hd)
    have hne : θ.shape ≠ [] := by rw [f.sθ]; simp
    have c1 := sc_op_left (· * ·) f.rθ.1.1 hne fun o => (fo o : 𝕜)
    have c2 := rep_num (φ := fun u => (fo [] : 𝕜) * u) (mul_zero _) f.rθ
    have d1 := sc_op_left (· * ·) a5.1.1 (by rw [a3]; exact hne) fun o => (fn o : 𝕜)
    have d2 := rep_num (φ := fun u => (fn [] : 𝕜) * u) (mul_zero _) a5
    obtain ⟨t, g1, g2, g3, g4⟩ := rep_add c2 d2 a3 a4 1 (.inl rfl)
    refine ⟨max N 1, fe, t, fun fuel hf => ?_, rfl, g2, g3, ?_,
      HasKey.ne_nil ((hasKey_add c2.1.1.sorted d2.1.1.sorted g1 k).2 (.inl ((hasKey_num _ θ k).2 ⟨v, hkθ⟩)))⟩
    · unfold twoSitesUpdateB
      rw [a1 fuel (by omega)]
      simp only [andThen, andNext]
      rw [b1 fuel (by omega)]
      simp only [mul, ofRealB_sc, c1, d1, g1]
    · simpa using g4

end QuantiT.BN
