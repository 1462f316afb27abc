import Verif.Lemmas.BlockCut
/-
The new sites of the block DMRG with truncation.
-/
namespace QuantiT.BN
open Spec BT MP Finset
variable {G 𝕜 : Type} [RCLike 𝕜]

/-- The right site made of the right factor. -/
theorem site_of_right [AddCommGroup G] [DecidableEq G] {t' r b : Dim G} (st : t'.length < 2 ^ 63) (sr : r.length < 2 ^ 63) (lb : b.length < 2 ^ 63)
    (w : BT G 𝕜) (hw : w.shape = [flipped t', flipped r, b]) (hcw : Conserving w.shape w.rule w.blocks) :
    ∃ q, permute (conj star w) [2, 0, 1] = .ok q ∧ q.shape = [flipped b, t', r] ∧ q.rule = -w.rule ∧ Sound q ∧
      ∀ k c j, k < dimSize b → c < dimSize t' → j < dimSize r →
        entry q.shape q.blocks [k, c, j] = star (entry w.shape w.blocks [c, j, k]) := by
  obtain ⟨cc, ce, cr, -⟩ := C27_conj (star : 𝕜 → 𝕜) (star_zero 𝕜) star_star w
  have cs : (conj star w).shape = [t', r, flipped b] := by rw [conj_shape, hw]; simp [flipped_flipped]
  obtain ⟨q, e2, q1, q2, q3, q4⟩ := C20_permute (conj star w) (cc hcw) [2, 0, 1] [2, 0, 1]
    (by rw [cs]; exact (by decide : [2, 0, 1].Perm (List.range 3)))
    (by
      rw [cs]
      exact .cons ⟨(by decide : 2 < 3), .inl rfl⟩ (.cons ⟨(by decide : 0 < 3), .inl rfl⟩ (.cons ⟨(by decide : 1 < 3), .inl rfl⟩ .nil)))
  have q1 : q.shape = [flipped b, t', r] := by rw [cs] at q1; exact (Option.some.inj q1).symm
  refine ⟨q, e2, q1, by rw [q2, cr], ⟨q3, ?_⟩, ?_⟩
  · rw [q1]
    intro x hx
    simp at hx
    rcases hx with rfl | rfl | rfl
    · simpa [flipped] using lb
    · exact st
    · exact sr
  · intro k c j hk hc hj
    rw [q4 [c, j, k] [k, c, j] (by rw [cs]; exact .cons hc (.cons hj (.cons (by rw [dimSize_flipped]; exact hk) .nil))) rfl, ce]

/-- The new sites of an update with truncation. -/
theorem new_sitesB_cut [AddCommGroup G] [LinearOrder G] {fac : Blk 𝕜 → Blk 𝕜 × Blk 𝕜 × Blk 𝕜} (hfac : DenseSvd fac)
    {t : BT G 𝕜} {θ : Blk 𝕜} {l s t' r : Dim G} (hR : Rep t θ) (hs : t.shape = [l, s, t', r])
    (hz : ∀ d ∈ t.shape, 0 < dimSize d) (hsm : l.length * s.length < 2 ^ 63) (hsz : dimSize l * dimSize s < 2 ^ 63)
    (h1 : ‖DM.toV [dimSize l, dimSize s, dimSize t', dimSize r] θ‖ = 1) (eps cutoff : ℝ) (he0 : 0 < eps) (he1 : eps ≤ 1 / 2) (hcut : 0 ≤ cutoff)
    (minB maxB : Nat) (hmin : 1 ≤ minB) (htidy : Tidy fac eps cutoff minB maxB t 2) (fwd : Bool) (fe : List Nat → ℝ) :
    ∃ A' B' b φ c p K0, (andNext (svdCutB fac eps t 2 cutoff minB maxB fun x => x ^ 2) fun f =>
        andNext (unitSumB f.2.1) fun d =>
        andNext (item (sc fe : BT G ℝ)) fun E =>
        if fwd then
          andNext (mulInPlace f.2.2 d) fun vd =>
          andNext (permute (conj star vd) [2, 0, 1]) fun nx =>
          some (.ok (E, f.1, nx))
        else
          andNext (do reshapeAs false d (← unsqueezedShape d)) fun _ =>
          andNext (mulInPlace f.1 d) fun ud =>
          andNext (permute (conj star f.2.2) [2, 0, 1]) fun nx =>
          some (.ok (E, ud, nx))) = some (.ok (fe [], A', B')) ∧
      A'.shape = [l, s, b] ∧ B'.shape = [flipped b, t', r] ∧ Sound A' ∧ Sound B' ∧ A'.rule + B'.rule = t.rule ∧
      CutSites (denseOf A') (denseOf B') θ φ fwd eps cutoff minB maxB (dimSize l) (dimSize s) (dimSize t') (dimSize r) (dimSize b) p K0 c := by
  have hnz : ∃ e1 e2, InRange e1 ([l, s].map dimSize) ∧ InRange e2 ([t', r].map dimSize) ∧ entry t.shape t.blocks (e1 ++ e2) ≠ 0 := by
    by_contra hcon
    have : DM.toV [dimSize l, dimSize s, dimSize t', dimSize r] θ = 0 := by
      ext o
      have ho := MP.mem_configs.1 o.2
      obtain ⟨ov, hov⟩ := o
      unfold InRange at ho
      obtain ⟨x, o1, hx, ho1, rfl⟩ := List.forall₂_cons_right_iff.1 ho
      obtain ⟨y, o2, hy, ho2, rfl⟩ := List.forall₂_cons_right_iff.1 ho1
      obtain ⟨y', o3, hy', ho3, rfl⟩ := List.forall₂_cons_right_iff.1 ho2
      obtain ⟨z, o4, hz, ho4, rfl⟩ := List.forall₂_cons_right_iff.1 ho3
      cases ho4
      show θ.f [x, y, y', z] = 0
      by_contra hne
      refine hcon ⟨[x, y], [y', z], .cons hx (.cons hy .nil), .cons hy' (.cons hz .nil), ?_⟩
      rw [hR.f (by rw [hs]; exact .cons hx (.cons hy (.cons hy' (.cons hz .nil))))] at hne
      exact hne
    rw [this, norm_zero] at h1
    exact zero_ne_one h1
  obtain ⟨u, v, u', v', d', b0, b, σ, lst, K0, live, old, e1, ⟨u1, u2, u3⟩, ⟨d1, d2, d3⟩, ⟨v1, v2, v3⟩, ⟨b1, b2, b3, -⟩, hσ0, hp, ho,
    ⟨l1, l2, l3, l4, l5, l6, l7, l8⟩, hD, -⟩ := svdCutB_columns hfac t [l, s] [t', r] hs (by simp) (by simp) hR.1.1 hz hnz (by simpa using hsz)
      eps cutoff hcut minB maxB hmin htidy
  have e1 : svdCutB fac eps t 2 cutoff minB maxB (fun x => x ^ 2) = .ok (u', ofRealB d', v') := e1
  have u1 : u'.shape = [l, s, b] := u1
  have v1 : v'.shape = [flipped t', flipped r, b] := v1
  have lb : b.length < 2 ^ 63 := by
    simp at b2; omega
  have hso := hR.1.2
  rw [hs] at hso hz
  have pop : ∀ x : Dim G, 0 < dimSize x → x ≠ [] := by rintro x hx rfl; simp [dimSize] at hx
  have zl := hz l (by simp)
  have zs := hz s (by simp)
  have zt := hz t' (by simp)
  have zr := hz r (by simp)
  have hA : ∀ e ∈ configs [dimSize l, dimSize s], ∀ f ∈ configs [dimSize t', dimSize r], θ.f (e ++ f) = ∑ k ∈ range (dimSize b0),
      entry u.shape u.blocks (e ++ [k]) * (σ k : 𝕜) * star (entry v.shape v.blocks (f ++ [k])) := by
    intro e he f hf
    rw [← hp e f he hf, hR.f]
    rw [hs]
    exact List.rel_append (MP.mem_configs.1 he) (MP.mem_configs.1 hf)
  have hU := fun a b ha hb => (ho a b ha hb).1
  have hV := fun a b ha hb => (ho a b ha hb).2
  obtain ⟨c, c1, c2, c3, c4, c5, c6, c7, c8, c9⟩ := DM.dead_cut h1 hσ0 hU hV hA he0 he1 l1 l2 l3 l4 rfl l7 l8 hD
  have hdc : Conserving (ofRealB d' : BT G 𝕜).shape (ofRealB d' : BT G 𝕜).rule (ofRealB d' : BT G 𝕜).blocks := conserving_mapBlocks _ d3
  have hde : ∀ e, entry (ofRealB d' : BT G 𝕜).shape (ofRealB d' : BT G 𝕜).blocks e = ((entry d'.shape d'.blocks e : ℝ) : 𝕜) :=
    fun e => entry_mapBlocks (fun x : ℝ => (x : 𝕜)) (by simp) d' e
  obtain ⟨dn, n1, n2, n3, n4, n5⟩ := unitSumB_div (d := (ofRealB d' : BT G 𝕜)) d1 d2 hdc c c1 (by
    rw [← c3]
    push_cast
    exact sum_congr rfl fun k _ => by rw [hde])
  have n2' : dn.shape = neutralised [b] := n2.trans d1
  have hnb : ∀ m, entry dn.shape dn.blocks [m] = ((entry d'.shape d'.blocks [m] / c : ℝ) : 𝕜) := fun m => by rw [n5 [m], hde]; push_cast; rfl
  have hdpos : ∀ k, k < dimSize b → live k → entry d'.shape d'.blocks [k] / c ≠ 0 := by
    intro k hk hl
    obtain ⟨g1, g2⟩ := hD.into k hk hl
    have g3 := hD.dLive k hk hl
    rw [g3]
    refine div_ne_zero ?_ c1.ne'
    have : 0 ≤ lst.getD (K0 - 1) 0 := by
      rw [List.getD_eq_getElem?_getD]
      cases h : lst[K0 - 1]? with
      | none => simp
      | some x =>
        obtain ⟨k, hk, rfl⟩ := List.mem_map.1 (l1.subset (List.mem_of_getElem? h))
        exact hσ0 k (List.mem_range.1 hk)
    have : 0 < σ (old k) := by nlinarith
    exact this.ne'
  have sleft : ∀ w : BT G 𝕜, w.shape = [l, s, b] → Conserving w.shape w.rule w.blocks → Sound w := by
    intro w hw hcw
    refine ⟨hcw, ?_⟩
    rw [hw]
    intro x hx
    simp at hx
    rcases hx with rfl | rfl | rfl
    · exact hso _ (by simp)
    · exact hso _ (by simp)
    · exact lb
  have popv : Populated [flipped t', flipped r] := by
    intro x hx
    simp at hx
    rcases hx with rfl | rfl
    · exact pop _ (by rw [dimSize_flipped]; exact zt)
    · exact pop _ (by rw [dimSize_flipped]; exact zr)
  have popu : Populated [l, s] := by
    intro x hx
    simp at hx
    rcases hx with rfl | rfl
    · exact pop _ zl
    · exact pop _ zs
  cases fwd with
  | true =>
    obtain ⟨vd, w0, w1, w2, w3, w4⟩ := mul_last v' dn [flipped t', flipped r] b v1 n2' n3 v3 n4 popv b1
    have w0 : mulInPlace v' dn = .ok vd := (mul_last_in_place v' dn [flipped t', flipped r] b v1 n2' v3 n4 popv b1).trans w0
    have w1 : vd.shape = [flipped t', flipped r, b] := w1
    obtain ⟨q, q0, q1, q2, q3, q4⟩ := site_of_right (hso t' (by simp)) (hso r (by simp)) lb vd w1 w3
    have hS : DM.DeadSites (denseOf u') (denseOf q) (fun e k => entry u'.shape u'.blocks (e ++ [k])) (fun e k => entry v'.shape v'.blocks (e ++ [k]))
        (fun k => entry d'.shape d'.blocks [k]) (fun _ => 1) (fun k => entry d'.shape d'.blocks [k] / c) c (dimSize l) (dimSize s) (dimSize t') (dimSize r)
        (dimSize b) live := by
      refine ⟨by rw [denseOf_dims, u1]; rfl, by rw [denseOf_dims, q1, ← dimSize_flipped b]; rfl, ?_, ?_, fun k _ => one_mul _, fun _ _ _ => one_ne_zero, hdpos⟩
      · intro x y k hx hy hk
        show entry u'.shape u'.blocks [x, y, k] = entry u'.shape u'.blocks [x, y, k] * _
        simp
      · intro k y z hk hy hz
        show entry q.shape q.blocks [k, y, z] = _
        have := w4 [y, z] k (.cons (by rw [dimSize_flipped]; exact hy) (.cons (by rw [dimSize_flipped]; exact hz) .nil)) hk
        simp only [List.cons_append, List.nil_append] at this
        rw [q4 k y z hk hy hz, this, hnb, star_mul']
        congr 1
        exact RCLike.conj_ofReal _
    refine ⟨u', q, b, _, c, _, K0, ?_, u1, q1, sleft u' u1 u3, q3, by rw [q2, u2, w2, v2]; simp,
      cut_sites h1 hσ0 hU hV hA he1 l1 l2 l3 l5 l6 hD c1 c2 c4 c5 c6 c7 c8 c9 true hS (fun _ _ _ => rfl) (fun h => by cases h)⟩
    simp only [e1, andNext, andThen, n1, sc_item, if_true, w0, q0]
  | false =>
    obtain ⟨ud, w0, w1, w2, w3, w4⟩ := mul_last u' dn [l, s] b u1 n2' n3 u3 n4 popu b1
    have w0 : mulInPlace u' dn = .ok ud := (mul_last_in_place u' dn [l, s] b u1 n2' u3 n4 popu b1).trans w0
    have w1 : ud.shape = [l, s, b] := w1
    obtain ⟨q, q0, q1, q2, q3, q4⟩ := site_of_right (hso t' (by simp)) (hso r (by simp)) lb v' v1 v3
    obtain ⟨rr, r1⟩ := unsqueezed_ok (d := dn) n2' n4 (by simpa using b1)
    have hS : DM.DeadSites (denseOf ud) (denseOf q) (fun e k => entry u'.shape u'.blocks (e ++ [k])) (fun e k => entry v'.shape v'.blocks (e ++ [k]))
        (fun k => entry d'.shape d'.blocks [k]) (fun k => entry d'.shape d'.blocks [k] / c) (fun _ => 1) c (dimSize l) (dimSize s) (dimSize t') (dimSize r)
        (dimSize b) live := by
      refine ⟨by rw [denseOf_dims, w1]; rfl, by rw [denseOf_dims, q1, ← dimSize_flipped b]; rfl, ?_, ?_, fun k _ => mul_one _, hdpos, fun _ _ _ => one_ne_zero⟩
      · intro x y k hx hy hk
        show entry ud.shape ud.blocks [x, y, k] = entry u'.shape u'.blocks [x, y, k] * _
        have := w4 [x, y] k (.cons hx (.cons hy .nil)) hk
        simp only [List.cons_append, List.nil_append] at this
        rw [this, hnb]
      · intro k y z hk hy hz
        show entry q.shape q.blocks [k, y, z] = _
        rw [q4 k y z hk hy hz]
        simp
    refine ⟨ud, q, b, _, c, _, K0, ?_, w1, q1, sleft ud w1 w3, q3, by rw [q2, w2, u2, v2]; simp,
      cut_sites h1 hσ0 hU hV hA he1 l1 l2 l3 l5 l6 hD c1 c2 c4 c5 c6 c7 c8 c9 false hS (fun h => by cases h) (fun _ _ _ => rfl)⟩
    simp only [e1, andNext, andThen, n1, sc_item, Bool.false_eq_true, if_false, w0, q0, r1]

end QuantiT.BN
