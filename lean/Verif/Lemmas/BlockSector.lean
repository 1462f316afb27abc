import Verif.Lemmas.BlockDmrg6
import Verif.Lemmas.BlockCut2
/-
What the two-site update of block tensors keeps whatever the state, normalised or not: shape, rule and the places of the blocks.
-/
namespace QuantiT.BN
open Spec BT
variable {G R : Type}

/-! ### Numbers, stored or not -/

/-- A number, stored or not. -/
def Scal [Zero G] (t : BT G R) : Prop := t = noSc ∨ ∃ f, t = sc f

theorem Scal.shape [Zero G] {t : BT G R} (h : Scal t) : t.shape = [] ∧ t.rule = 0 := by
  rcases h with rfl | ⟨f, rfl⟩ <;> exact ⟨rfl, rfl⟩

theorem Scal.map [Zero G] {S : Type} (g : R → S) {t : BT G R} (h : Scal t) : Scal (mapBlocks g t) := by
  rcases h with rfl | ⟨f, rfl⟩
  · exact .inl rfl
  · exact .inr ⟨_, rfl⟩

theorem Scal.scale [Zero G] [Semiring R] (c : R) {t : BT G R} (h : Scal t) : Scal (BT.scale c t) := by
  rcases h with rfl | ⟨f, rfl⟩
  · exact .inl rfl
  · exact .inr ⟨_, rfl⟩

theorem Scal.conj [AddCommGroup G] (c : R → R) {t : BT G R} (h : Scal t) : Scal (BT.conj c t) := by
  rcases h with rfl | ⟨f, rfl⟩
  · exact .inl (noSc_conj c)
  · exact .inr ⟨_, sc_conj c f⟩

theorem Scal.add [Zero G] [DecidableEq G] [Semiring R] (a : R) {t u : BT G R} (h : Scal t) (h' : Scal u) : ∃ r, BT.add t u a = .ok r ∧ Scal r := by
  rcases h with rfl | ⟨f, rfl⟩ <;> rcases h' with rfl | ⟨g, rfl⟩
  · exact ⟨_, noSc_add_noSc a, .inl rfl⟩
  · exact ⟨_, noSc_add_sc g a, .inr ⟨_, rfl⟩⟩
  · exact ⟨_, sc_add_noSc f a, .inr ⟨_, rfl⟩⟩
  · exact ⟨_, sc_add f g a, .inr ⟨_, rfl⟩⟩

theorem Scal.op [AddCommGroup G] [DecidableEq G] (op : R → R → R) {t u : BT G R} (h : Scal t) (h' : Scal u) :
    ∃ r, broadcastOp op t u = .ok r ∧ Scal r := by
  by_cases hn : t = noSc ∨ u = noSc
  · exact ⟨_, noSc_op op h h' hn, .inl rfl⟩
  · rcases h with rfl | ⟨f, rfl⟩
    · exact absurd (.inl rfl) hn
    · rcases h' with rfl | ⟨g, rfl⟩
      · exact absurd (.inr rfl) hn
      · exact ⟨_, sc_op op f g, .inr ⟨_, rfl⟩⟩

theorem Scal.addNan [Zero G] [DecidableEq G] {t u : BT G (Option ℝ)} (h : Scal t) (h' : Scal u) : ∃ r, BN.addNan t u = .ok r ∧ Scal r := by
  rcases h with rfl | ⟨f, rfl⟩ <;> rcases h' with rfl | ⟨g, rfl⟩
  · exact ⟨noSc, by simp only [BN.addNan, addCheck, noSc]; rfl, .inl rfl⟩
  · exact ⟨sc g, by simp only [BN.addNan, addCheck, noSc, sc]; rfl, .inr ⟨_, rfl⟩⟩
  · exact ⟨sc f, by simp only [BN.addNan, addCheck, noSc, sc]; rfl, .inr ⟨_, rfl⟩⟩
  · exact ⟨_, sc_addNan f g, .inr ⟨_, rfl⟩⟩

theorem Scal.item [Zero G] [Zero R] {t : BT G R} (h : Scal t) : ∃ x, BT.item t = .ok x := by
  rcases h with rfl | ⟨f, rfl⟩
  · exact ⟨_, noSc_item⟩
  · exact ⟨_, sc_item f⟩

theorem Scal.itemNan [Zero G] {t : BT G (Option ℝ)} (h : Scal t) : ∃ x, BN.itemNan t = .ok x := by
  rcases h with rfl | ⟨f, rfl⟩
  · exact ⟨some 0, rfl⟩
  · exact ⟨_, sc_itemNan f⟩

theorem Scal.filled [AddCommGroup G] [DecidableEq G] (x : ℝ) {fuel : Nat} (hf : 1 ≤ fuel) {t : BT G (Option ℝ)} (h : Scal t) :
    filledLike x fuel t = some (.ok (sc fun _ => some x)) := by
  rw [← filledLike_sc x hf fun _ => some x]
  unfold filledLike
  rw [h.shape.1, h.shape.2]
  rfl

/-- The coefficients of the eigenproblem are numbers. -/
theorem eigCoeffs_scal [AddCommGroup G] [DecidableEq G] {a0 a1 b : BT G ℝ} (h0 : Scal a0) (h1 : Scal a1) (hb : Scal b) :
    ∃ E o n Z, eigCoeffs a0 a1 b = .ok (E, o, n, Z) ∧ Scal E ∧ Scal o ∧ Scal n := by
  obtain ⟨diff, e1, s1⟩ := h0.add (-1) h1
  obtain ⟨bb, e2, s2⟩ := (hb.conj id).op (· * ·) hb
  obtain ⟨s, e3, s3⟩ := (s1.map (· ^ 2)).add 1 (s2.scale 4)
  obtain ⟨sm, e4, s4⟩ := h0.add 1 h1
  obtain ⟨e, e5, s5⟩ := s4.add (-1) (s3.map Real.sqrt)
  obtain ⟨delt, e6, s6⟩ := (s5.map (· / 2)).add (-1) h1
  obtain ⟨q, e7, s7⟩ := (s6.map some).op (lift2 DM.fdiv) (((s3.map Real.sqrt).scale (-1)).map some)
  obtain ⟨oE, e8, s8⟩ := (s7.map (·.bind DM.fsqrt)).addNan ((s5.map (· / 2)).map some)
  obtain ⟨eq, e9, s9⟩ := s8.op eqNan ((s5.map (· / 2)).map some)
  obtain ⟨isEq, e10⟩ := s9.itemNan
  obtain ⟨ov, e11⟩ := (s7.map (·.bind DM.fsqrt)).itemNan
  obtain ⟨bo, e12, s12⟩ := (hb.map some).op (lift2 fun x y => some (x * y)) (s7.map (·.bind DM.fsqrt))
  obtain ⟨n, e13, s13⟩ := s12.op (lift2 DM.fdiv) (s6.map some)
  refine ⟨_, _, n, isEq ≠ some 0 ∨ ov = none, ?_, s5.map (· / 2), s7.map (·.bind DM.fsqrt), s13⟩
  unfold eigCoeffs mul numB
  simp only [e1, e2, e3, e4, e5, e6, e7, e8, e9, e10, e11, e12, e13, bind, Except.bind]

theorem eig2x2B_scal [AddCommGroup G] [DecidableEq G] {a0 a1 b E o n : BT G ℝ} (h0 : Scal a0) (h1 : Scal a1) (hb : Scal b) {fuel : Nat} (hf : 1 ≤ fuel)
    (h : eig2x2B fuel a0 a1 b = some (.ok (E, o, n))) : Scal E ∧ Scal o ∧ Scal n := by
  obtain ⟨E', o', n', Z, e1, s1, s2, s3⟩ := eigCoeffs_scal h0 h1 hb
  unfold eig2x2B at h
  rw [e1] at h
  simp only [andNext, andThen] at h
  have key : ∀ x y : BT G (Option ℝ), Scal x → Scal y → ∀ E' : BT G ℝ, Scal E' →
      (andNext (nanFound x) fun bad => if bad = true then some (Res.throw .logicError) else
        andNext (nanFound y) fun bad => if bad = true then some (Res.throw .logicError) else
          some (.ok (E', mapBlocks (·.getD 0) x, mapBlocks (·.getD 0) y)) : Option (Res (BT G ℝ × BT G ℝ × BT G ℝ))) = some (.ok (E, o, n)) →
      Scal E ∧ Scal o ∧ Scal n := by
    intro x y ho hn E' hE h
    unfold andNext andThen at h
    cases hx : nanFound x with
    | error e => rw [hx] at h; cases h
    | ok bad =>
      rw [hx] at h
      simp only at h
      split at h
      · cases h
      · cases hy : nanFound y with
        | error e => rw [hy] at h; cases h
        | ok bad =>
          rw [hy] at h
          simp only at h
          split at h
          · cases h
          · cases h
            exact ⟨hE, ho.map _, hn.map _⟩
  by_cases hz : Z
  · simp only [if_pos hz, s2.filled _ hf, s3.filled _ hf] at h
    exact key (sc fun _ => some 0) (sc fun _ => some 1) (.inr ⟨_, rfl⟩) (.inr ⟨_, rfl⟩) E' s1 h
  · simp only [if_neg hz] at h
    exact key _ _ s2 s3 _ s1 h

theorem eig2x2B_fuel [AddCommGroup G] [DecidableEq G] {a0 a1 b : BT G ℝ} (h0 : Scal a0) (h1 : Scal a1) (hb : Scal b) {fuel : Nat} (hf : 1 ≤ fuel) :
    eig2x2B fuel a0 a1 b = eig2x2B 1 a0 a1 b := by
  obtain ⟨E', o', n', Z, e1, s1, s2, s3⟩ := eigCoeffs_scal h0 h1 hb
  unfold eig2x2B
  rw [e1]
  simp only [andNext, andThen, s2.filled _ hf, s3.filled _ hf, s2.filled _ (le_refl 1), s3.filled _ (le_refl 1)]

/-! ### A tensor and a number -/

/-- A number, stored or not, times a tensor. -/
theorem scal_mul [AddCommGroup G] [DecidableEq G] [Semiring R] {c t : BT G R} (hc : Scal c) (h : Conserving t.shape t.rule t.blocks) (hne : t.shape ≠ []) :
    ∃ r, mul c t = .ok r ∧ r.shape = t.shape ∧ r.rule = t.rule ∧ Conserving r.shape r.rule r.blocks := by
  rcases hc with rfl | ⟨g, rfl⟩
  · refine ⟨⟨t.shape, t.rule, []⟩, ?_, rfl, rfl, ⟨sorted_nil, by simp⟩⟩
    have hle : ¬ t.shape.length ≤ (noSc : BT G R).shape.length := by
      have := List.length_pos_iff.2 hne
      simp [noSc]; exact hne
    have hsh : shapeCompute t (noSc : BT G R) = .ok ([], t.shape, t.rule) := by
      simp [shapeCompute, noSc, bind, Except.bind, pure, Except.pure]
    have hps : (t.blocks.flatMap fun o => (noSc : BT G R).blocks.map fun t => (o, t)) = [] := by simp [noSc]
    unfold mul broadcastOp
    simp only [hle, decide_false, Bool.false_eq_true, if_false, hsh, hps, bind, Except.bind, List.foldlM_nil, pure, Except.pure]
    exact mkChecked_ok (bl := []) (by simp)
  · exact ⟨_, sc_op_left (· * ·) h hne g, rfl, rfl, numBlocks_conserving (fun x => g [] * x) h⟩

theorem mul_scal [AddCommGroup G] [DecidableEq G] [Semiring R] {c t : BT G R} (hc : Scal c) (h : Conserving t.shape t.rule t.blocks) :
    ∃ r, mul t c = .ok r ∧ r.shape = t.shape ∧ r.rule = t.rule ∧ Conserving r.shape r.rule r.blocks := by
  rcases hc with rfl | ⟨g, rfl⟩
  · exact ⟨_, op_noSc (· * ·) t, rfl, rfl, ⟨sorted_nil, by simp⟩⟩
  · exact ⟨_, op_sc (· * ·) h g, rfl, rfl, numBlocks_conserving (fun x => x * g []) h⟩

/-! ### The Lanczos step -/

section
variable {𝕜 : Type} [RCLike 𝕜] [AddCommGroup G] [DecidableEq G]

theorem dot4B_scal {t t' : BT G 𝕜} (h : Sound t) (h' : Sound t') {t0 t1 t2 t3 s0 s1 s2 s3 : Dim G}
    (sh : t.shape = [t0, t1, t2, t3]) (sh' : t'.shape = [s0, s1, s2, s3]) (o0 : Opposite t0 s0) (o1 : Opposite t1 s1) (o2 : Opposite t2 s2)
    (o3 : Opposite t3 s3) (hr : t.rule + t'.rule = 0) : ∃ N c, (∀ fuel, N ≤ fuel → dot4B fuel t t' = some (.ok c)) ∧ Scal c := by
  rcases dot4B_cases (Rep.self h) (Rep.self h') sh sh' o0 o1 o2 o3 hr with ⟨_, _, _, N, f, h1, _⟩ | ⟨_, N, h1, _⟩
  · exact ⟨N, _, h1, .inr ⟨f, rfl⟩⟩
  · exact ⟨N, _, h1, .inl rfl⟩

theorem sound_conj {t : BT G 𝕜} (h : Sound t) : Sound (conj star t) := (rep_conj (star_zero 𝕜) (Rep.self h)).1

open Classical in
/-- The Lanczos step always gives a vector of the same shape and rule and three numbers. -/
theorem lanczosB_runs {θ H L Rt : BT G 𝕜} {x h l r : Blk 𝕜} {t0 t1 t2 t3 : Dim G} (f : UpdateFit θ H L Rt x h l r t0 t1 t2 t3) :
    ∃ N p a0 a1 b, (∀ fuel, N ≤ fuel → lanczosB fuel θ H L Rt = some (.ok (p, a0, a1, b))) ∧ p.shape = θ.shape ∧ p.rule = θ.rule ∧ Sound p ∧
      Scal a0 ∧ Scal a1 ∧ Scal b := by
  obtain ⟨N1, q, y, m1, -, m3, m4, m5⟩ := f.times
  have sθ := f.rθ.1
  obtain ⟨N2, a0, b1, sa0⟩ := dot4B_scal m5.1 (sound_conj sθ) (m3.trans f.sθ) (conj_shape4 f.sθ) (opposite_flipped _) (opposite_flipped _)
    (opposite_flipped _) (opposite_flipped _) (by show q.rule + -θ.rule = 0; rw [m4, add_neg_cancel])
  obtain ⟨sa, c1, c2, c3, c4⟩ := mul_scal (sa0.map fun x : ℝ => (x : 𝕜)) sθ.1
  obtain ⟨q2, d1, d2, d3, d4, -⟩ := C21_add_exact_partial q sa (-1) m5.1.1 c4 (m3.trans c2.symm) (m4.trans c3.symm)
  have hq2 : Sound q2 := ⟨d4, by rw [d2]; exact m5.1.2⟩
  have s2 : q2.shape = θ.shape := d2.trans m3
  have r2 : q2.rule = θ.rule := d3.trans m4
  obtain ⟨N3, b2, e1, sb2⟩ := dot4B_scal hq2 (sound_conj hq2) (s2.trans f.sθ) (conj_shape4 (s2.trans f.sθ)) (opposite_flipped _) (opposite_flipped _)
    (opposite_flipped _) (opposite_flipped _) (by show q2.rule + -q2.rule = 0; rw [add_neg_cancel])
  obtain ⟨ns, i1, p, g1, g2, g3, g4⟩ : ∃ ns, item (mapBlocks (fun x : ℝ => if (1e-15 : ℝ) ≤ |x| then (1 : Nat) else 0) (mapBlocks Real.sqrt b2)) = .ok ns ∧
      ∃ p, (if ns ≠ 0 then broadcastInPlace (· / ·) q2 (ofRealB (mapBlocks Real.sqrt b2)) else .ok q2) = .ok p ∧ p.shape = θ.shape ∧ p.rule = θ.rule ∧
        Sound p := by
    rcases sb2 with rfl | ⟨g, rfl⟩
    · exact ⟨0, rfl, q2, by simp, s2, r2, hq2⟩
    · refine ⟨_, rfl, ?_⟩
      split
      · exact ⟨_, inPlace_sc (· / ·) hq2.1.sorted fun o => ((√(g o) : ℝ) : 𝕜), s2, r2, numBlocks_conserving (fun x => x / ((√(g []) : ℝ) : 𝕜)) hq2.1, hq2.2⟩
      · exact ⟨q2, rfl, s2, r2, hq2⟩
  obtain ⟨N4, q', y', n1, -, n3, n4, n5⟩ := (f.with (Rep.self g4) g2).times
  obtain ⟨N5, a1, o1, sa1⟩ := dot4B_scal (sound_conj g4) n5.1 (conj_shape4 (g2.trans f.sθ)) (n3.trans (g2.trans f.sθ)) (flipped_opposite _)
    (flipped_opposite _) (flipped_opposite _) (flipped_opposite _) (by show -p.rule + q'.rule = 0; rw [n4, neg_add_cancel])
  refine ⟨max N1 (max N2 (max N3 (max N4 N5))), p, a0, a1, mapBlocks Real.sqrt b2, fun fuel hf => ?_, g2, g3, g4, sa0, sa1, sb2.map _⟩
  unfold lanczosB
  rw [m1 fuel (by omega)]
  simp only [andThen, andNext]
  rw [b1 fuel (by omega)]
  simp only
  rw [show (ofRealB a0 : BT G 𝕜) = mapBlocks (fun x : ℝ => (x : 𝕜)) a0 from rfl, c1]
  simp only [d1]
  rw [e1 fuel (by omega)]
  simp only [i1, g1]
  rw [n1 fuel (by omega)]
  simp only
  rw [o1 fuel (by omega)]

/-- The new two-site tensor has the shape and the rule of the old one, whatever the state. -/
theorem twoSitesUpdateB_shape {θ H L Rt : BT G 𝕜} {x h l r : Blk 𝕜} {t0 t1 t2 t3 : Dim G} (f : UpdateFit θ H L Rt x h l r t0 t1 t2 t3) :
    ∃ N, (∀ fuel, N ≤ fuel → twoSitesUpdateB fuel θ H L Rt = twoSitesUpdateB N θ H L Rt) ∧
      ∀ fuel, N ≤ fuel → ∀ E t, twoSitesUpdateB fuel θ H L Rt = some (.ok (E, t)) →
      t.shape = θ.shape ∧ t.rule = θ.rule ∧ Sound t := by
  obtain ⟨N, p, a0, a1, b, h1, h2, h3, h4, s0, s1, sb⟩ := lanczosB_runs f
  refine ⟨max N 1, fun fuel hf => ?_, fun fuel hf E t ht => ?_⟩
  · unfold twoSitesUpdateB
    rw [h1 fuel (by omega), h1 (max N 1) (by omega)]
    simp only [andThen]
    rw [eig2x2B_fuel s0 s1 sb (by omega : 1 ≤ fuel), eig2x2B_fuel s0 s1 sb (by omega : 1 ≤ max N 1)]
  unfold twoSitesUpdateB at ht
  rw [h1 fuel (by omega)] at ht
  simp only [andThen, andNext] at ht
  cases he : eig2x2B fuel a0 a1 b with
  | none => rw [he] at ht; cases ht
  | some res =>
    rw [he] at ht
    cases res with
    | error e => cases ht
    | ok c =>
      obtain ⟨E', co, cn⟩ := c
      obtain ⟨-, so, sn⟩ := eig2x2B_scal s0 s1 sb (by omega) he
      have hne : θ.shape ≠ [] := by rw [f.sθ]; simp
      obtain ⟨u, u1, u2, u3, u4⟩ := scal_mul (so.map fun x : ℝ => (x : 𝕜)) f.rθ.1.1 hne
      obtain ⟨v, v1, v2, v3, v4⟩ := scal_mul (sn.map fun x : ℝ => (x : 𝕜)) h4.1 (by rw [h2]; exact hne)
      obtain ⟨w, w1, w2, w3, w4, -⟩ := C21_add_exact_partial u v 1 u4 v4 (by rw [u2, v2, h2]) (by rw [u3, v3, h3])
      simp only at ht
      rw [show (ofRealB co : BT G 𝕜) = mapBlocks (fun x : ℝ => (x : 𝕜)) co from rfl,
        show (ofRealB cn : BT G 𝕜) = mapBlocks (fun x : ℝ => (x : 𝕜)) cn from rfl, u1] at ht
      simp only [v1, w1] at ht
      cases ht
      exact ⟨w2.trans u2, w3.trans u3, w4, by rw [w2, u2]; exact f.rθ.1.2⟩

end

end QuantiT.BN
