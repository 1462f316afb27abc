import Verif.Lemmas.BlockCut2
/-
Truncation of a two-site block tensor that is not zero, whatever its norm.
-/
namespace QuantiT
namespace DM
open Finset Spec MP
variable {𝕜 : Type} [RCLike 𝕜]

/-- The truncated tensor of a two-site tensor that is not zero can be normalised. -/
theorem cold_dead {θ : Blk 𝕜} {l s t r : Nat} (hn : toV [l, s, t, r] θ ≠ 0)
    {U U' V V' : List Nat → Nat → 𝕜} {σ σ' : Nat → ℝ} {K K' : Nat} (hσ0 : ∀ k, k < K → 0 ≤ σ k)
    (hU : ∀ a b, a < K → b < K → ∑ e ∈ configs [l, s], star (U e a) * U e b = if a = b then 1 else 0)
    (hV : ∀ a b, a < K → b < K → ∑ e ∈ configs [t, r], star (V e a) * V e b = if a = b then 1 else 0)
    (hA : ∀ e ∈ configs [l, s], ∀ f ∈ configs [t, r], θ.f (e ++ f) = ∑ k ∈ range K, U e k * (σ k : 𝕜) * star (V f k))
    {eps : ℝ} (he0 : 0 < eps) (he1 : eps ≤ 1 / 2) {lst : List ℝ} (hp : lst.Perm ((List.range K).map σ)) (hso : lst.Pairwise (· ≥ ·))
    {K0 : Nat} (hK1 : 1 ≤ K0) (hK2 : K0 ≤ lst.length)
    {live : Nat → Prop} {old : Nat → Nat}
    (hD : DeadBond (lst.getD (K0 - 1) 0 - 2 * lst.getD (K0 - 1) 0 * eps) U U' V V' σ σ' [l, s] [t, r] K K' live old) :
    ∃ c : ℝ, 0 < c ∧ ∑ k ∈ range K', σ' k ^ 2 = c ^ 2 ∧ ‖toV [l, s, t, r] (cutTensor U' V' (fun k => σ' k / c) K' l s t r)‖ = 1 := by
  obtain ⟨N, hNdef⟩ : ∃ N, N = ‖toV [l, s, t, r] θ‖ := ⟨_, rfl⟩
  have hN : 0 < N := hNdef ▸ norm_pos_iff.2 hn
  let θ' : Blk 𝕜 := ⟨θ.dims, fun o => ((N⁻¹ : ℝ) : 𝕜) * θ.f o⟩
  have hθ' : toV [l, s, t, r] θ' = ((N⁻¹ : ℝ) : 𝕜) • toV [l, s, t, r] θ := by
    ext o; rfl
  have hn' : ‖toV [l, s, t, r] θ'‖ = 1 := by
    rw [hθ', norm_smul, RCLike.norm_ofReal, abs_of_pos (inv_pos.2 hN), ← hNdef]
    exact inv_mul_cancel₀ hN.ne'
  have hlst : (lst.map fun x => x / N).getD (K0 - 1) 0 = lst.getD (K0 - 1) 0 / N := by
    simp only [List.getD_eq_getElem?_getD, List.getElem?_map]
    cases lst[K0 - 1]? <;> simp
  obtain ⟨c, c1, -, c3, c4, -⟩ := dead_cut (θ := θ') (K0 := K0) (minS := K0) (maxS := K0) (tol := 0) (eps := eps) hn' (U := U) (U' := U') (V := V) (V' := V')
    (σ := fun k => σ k / N) (σ' := fun k => σ' k / N) (K := K) (K' := K') (fun k hk => div_nonneg (hσ0 k hk) hN.le) hU hV
    (by
      intro e he f hf
      show ((N⁻¹ : ℝ) : 𝕜) * θ.f (e ++ f) = _
      rw [hA e he f hf, mul_sum]
      refine sum_congr rfl fun k _ => ?_
      push_cast
      rw [div_eq_mul_inv]
      ring)
    he0 he1 (lst := lst.map fun x => x / N)
    (by
      have := hp.map fun x => x / N
      rw [List.map_map] at this
      exact this)
    (by
      rw [List.pairwise_map]
      exact hso.imp fun h => div_le_div_of_nonneg_right h hN.le)
    hK1 (by simpa using hK2) rfl (fun h => absurd h (lt_irrefl _)) (fun j h1 h2 => absurd h1 (by omega))
    (live := live) (old := old)
    (by
      have ht : (lst.map fun x => x / N).getD (K0 - 1) 0 - 2 * (lst.map fun x => x / N).getD (K0 - 1) 0 * eps
          = (lst.getD (K0 - 1) 0 - 2 * lst.getD (K0 - 1) 0 * eps) / N := by
        rw [hlst]; ring
      rw [ht]
      have hlt : ∀ x y : ℝ, x / N < y / N ↔ x < y := fun x y => div_lt_div_iff_of_pos_right hN
      refine ⟨fun k h1 h2 => ?_, hD.inj, fun k h1 h2 => hD.onto k h1 ((hlt _ _).1 h2), fun k h1 h2 => ?_, fun k h1 h2 => ?_, hD.uLive, hD.vLive, hD.uDead, hD.vDead⟩
      · obtain ⟨g1, g2⟩ := hD.into k h1 h2
        exact ⟨g1, (hlt _ _).2 g2⟩
      · show σ' k / N = σ (old k) / N
        rw [hD.dLive k h1 h2]
      · show σ' k / N = 0
        rw [hD.dDead k h1 h2, zero_div])
  refine ⟨N * c, mul_pos hN c1, ?_, ?_⟩
  · have h : ∑ k ∈ range K', σ' k ^ 2 = N ^ 2 * ∑ k ∈ range K', (σ' k / N) ^ 2 := by
      rw [mul_sum]
      refine sum_congr rfl fun k _ => ?_
      field_simp
    rw [h, c3]; ring
  · have h : (fun k => σ' k / (N * c)) = fun k => σ' k / N / c := by
      funext k
      rw [div_div]
    rw [h]
    exact c4

end DM

namespace BN
open Spec BT MP Finset
variable {G 𝕜 : Type} [RCLike 𝕜]

/-- The sites `A`, `B` that replace a pair whose new two-site tensor is `θ`; `φ` is their product. -/
structure ColdSites (A B θ φ : Blk 𝕜) (fwd : Bool) (n i j n' k : Nat) : Prop where
  dimsA : A.dims = [n, i, k]
  dimsB : B.dims = [k, j, n']
  dims : φ.dims = [n, i, j, n']
  product : ∀ x y y' z, x < n → y < i → y' < j → z < n' → φ.f [x, y, y', z] = ∑ m ∈ range k, A.f [x, y, m] * B.f [m, y', z]
  norm : ‖DM.toV [n, i, j, n'] φ‖ = 1
  left : fwd = true → LeftSemi A
  right : fwd = false → RightSemi B
  same : ∀ x, x < k → (ZeroCol A x ↔ ZeroRow B x)
  zeroRow : ∀ x, x < n → (∀ y y' z, y < i → y' < j → z < n' → θ.f [x, y, y', z] = 0) → ZeroRow A x
  zeroCol : ∀ z, z < n' → (∀ x y y', x < n → y < i → y' < j → θ.f [x, y, y', z] = 0) → ZeroCol B z

theorem cold_sites {A B θ : Blk 𝕜} {n i j n' : Nat}
    {U U' V V' : List Nat → Nat → 𝕜} {σ σ' : Nat → ℝ} {K K' : Nat} (hσ0 : ∀ k, k < K → 0 ≤ σ k)
    (hU : ∀ a b, a < K → b < K → ∑ e ∈ configs [n, i], star (U e a) * U e b = if a = b then 1 else 0)
    (hV : ∀ a b, a < K → b < K → ∑ e ∈ configs [j, n'], star (V e a) * V e b = if a = b then 1 else 0)
    (hA : ∀ e ∈ configs [n, i], ∀ f ∈ configs [j, n'], θ.f (e ++ f) = ∑ k ∈ range K, U e k * (σ k : 𝕜) * star (V f k))
    {eps : ℝ} (he1 : eps ≤ 1 / 2) {lst : List ℝ} (hp : lst.Perm ((List.range K).map σ)) {K0 : Nat}
    {live : Nat → Prop} {old : Nat → Nat}
    (hD : DM.DeadBond (lst.getD (K0 - 1) 0 - 2 * lst.getD (K0 - 1) 0 * eps) U U' V V' σ σ' [n, i] [j, n'] K K' live old) {c : ℝ}
    (cn : ‖DM.toV [n, i, j, n'] (DM.cutTensor U' V' (fun k => σ' k / c) K' n i j n')‖ = 1)
    (fwd : Bool) {α β : Nat → ℝ} (hS : DM.DeadSites A B U' V' σ' α β c n i j n' K' live)
    (hα : fwd = true → ∀ k, k < K' → α k = 1) (hβ : fwd = false → ∀ k, k < K' → β k = 1) :
    ColdSites A B θ (DM.cutTensor U' V' (fun k => σ' k / c) K' n i j n') fwd n i j n' K' := by
  have hthr : 0 ≤ lst.getD (K0 - 1) 0 - 2 * lst.getD (K0 - 1) 0 * eps := by
    have : 0 ≤ lst.getD (K0 - 1) 0 := by
      rw [List.getD_eq_getElem?_getD]
      cases h : lst[K0 - 1]? with
      | none => simp
      | some x =>
        obtain ⟨k, hk, rfl⟩ := List.mem_map.1 (hp.subset (List.mem_of_getElem? h))
        exact hσ0 k (List.mem_range.1 hk)
    nlinarith
  exact ⟨hS.dimsA, hS.dimsB, rfl, hS.product, cn, fun h => hS.leftSemi hD hU (hα h), fun h => hS.rightSemi hD hV (hβ h),
    fun x hx => not_iff_not.1 ((hS.colA hD hU x hx).trans (hS.rowB hD hV x hx).symm),
    fun x hx h => hS.zeroRow hD hthr hV hA x hx h, fun z hz h => hS.zeroCol hD hthr hU hA z hz h⟩

/-- The new sites of an update from a two-site tensor that is not zero. -/
theorem new_sitesB_cold [AddCommGroup G] [LinearOrder G] {fac : Blk 𝕜 → Blk 𝕜 × Blk 𝕜 × Blk 𝕜} (hfac : DenseSvd fac)
    {t : BT G 𝕜} {θ : Blk 𝕜} {l s t' r : Dim G} (hR : Rep t θ) (hs : t.shape = [l, s, t', r])
    (hz : ∀ d ∈ t.shape, 0 < dimSize d) (hsm : l.length * s.length < 2 ^ 63) (hsz : dimSize l * dimSize s < 2 ^ 63)
    (h1 : DM.toV [dimSize l, dimSize s, dimSize t', dimSize r] θ ≠ 0) (eps cutoff : ℝ) (he0 : 0 < eps) (he1 : eps ≤ 1 / 2) (hcut : 0 ≤ cutoff)
    (minB maxB : Nat) (hmin : 1 ≤ minB) (htidy : Tidy fac eps cutoff minB maxB t 2) (fwd : Bool) (fe : List Nat → ℝ) :
    ∃ A' B' b φ, (andNext (svdCutB fac eps t 2 cutoff minB maxB fun x => x ^ 2) fun f =>
        andNext (unitSumB f.2.1) fun d =>
        andNext (item (sc fe : BT G ℝ)) fun E =>
        if fwd then
          andNext (mulInPlace f.2.2 d) fun vd =>
          andNext (permute (conj star vd) [2, 0, 1]) fun nx =>
          some (.ok (E, f.1, nx))
        else
          andNext (do reshapeAs false d (← unsqueezedShape d)) fun _ =>
          andNext (mulInPlace f.1 d) fun ud =>
          andNext (permute (conj star f.2.2) [2, 0, 1]) fun nx =>
          some (.ok (E, ud, nx))) = some (.ok (fe [], A', B')) ∧
      A'.shape = [l, s, b] ∧ B'.shape = [flipped b, t', r] ∧ Sound A' ∧ Sound B' ∧ A'.rule + B'.rule = t.rule ∧
      ColdSites (denseOf A') (denseOf B') θ φ fwd (dimSize l) (dimSize s) (dimSize t') (dimSize r) (dimSize b) := by
  have hnz : ∃ e1 e2, InRange e1 ([l, s].map dimSize) ∧ InRange e2 ([t', r].map dimSize) ∧ entry t.shape t.blocks (e1 ++ e2) ≠ 0 := by
    by_contra hcon
    have : DM.toV [dimSize l, dimSize s, dimSize t', dimSize r] θ = 0 := by
      ext o
      have ho := MP.mem_configs.1 o.2
      obtain ⟨ov, hov⟩ := o
      unfold InRange at ho
      obtain ⟨x, o1, hx, ho1, rfl⟩ := List.forall₂_cons_right_iff.1 ho
      obtain ⟨y, o2, hy, ho2, rfl⟩ := List.forall₂_cons_right_iff.1 ho1
      obtain ⟨y', o3, hy', ho3, rfl⟩ := List.forall₂_cons_right_iff.1 ho2
      obtain ⟨z, o4, hz, ho4, rfl⟩ := List.forall₂_cons_right_iff.1 ho3
      cases ho4
      show θ.f [x, y, y', z] = 0
      by_contra hne
      refine hcon ⟨[x, y], [y', z], .cons hx (.cons hy .nil), .cons hy' (.cons hz .nil), ?_⟩
      rw [hR.f (by rw [hs]; exact .cons hx (.cons hy (.cons hy' (.cons hz .nil))))] at hne
      exact hne
    exact h1 this
  obtain ⟨u, v, u', v', d', b0, b, σ, lst, K0, live, old, e1, ⟨u1, u2, u3⟩, ⟨d1, d2, d3⟩, ⟨v1, v2, v3⟩, ⟨b1, b2, b3, -⟩, hσ0, hp, ho,
    ⟨l1, l2, l3, l4, l5, l6, l7, l8⟩, hD, -⟩ := svdCutB_columns hfac t [l, s] [t', r] hs (by simp) (by simp) hR.1.1 hz hnz (by simpa using hsz)
      eps cutoff hcut minB maxB hmin htidy
  have e1 : svdCutB fac eps t 2 cutoff minB maxB (fun x => x ^ 2) = .ok (u', ofRealB d', v') := e1
  have u1 : u'.shape = [l, s, b] := u1
  have v1 : v'.shape = [flipped t', flipped r, b] := v1
  have lb : b.length < 2 ^ 63 := by
    simp at b2; omega
  have hso := hR.1.2
  rw [hs] at hso hz
  have pop : ∀ x : Dim G, 0 < dimSize x → x ≠ [] := by rintro x hx rfl; simp [dimSize] at hx
  have zl := hz l (by simp)
  have zs := hz s (by simp)
  have zt := hz t' (by simp)
  have zr := hz r (by simp)
  have hA : ∀ e ∈ configs [dimSize l, dimSize s], ∀ f ∈ configs [dimSize t', dimSize r], θ.f (e ++ f) = ∑ k ∈ range (dimSize b0),
      entry u.shape u.blocks (e ++ [k]) * (σ k : 𝕜) * star (entry v.shape v.blocks (f ++ [k])) := by
    intro e he f hf
    rw [← hp e f he hf, hR.f]
    rw [hs]
    exact List.rel_append (MP.mem_configs.1 he) (MP.mem_configs.1 hf)
  have hU := fun a b ha hb => (ho a b ha hb).1
  have hV := fun a b ha hb => (ho a b ha hb).2
  obtain ⟨c, c1, c3, c4⟩ := DM.cold_dead h1 hσ0 hU hV hA he0 he1 l1 l2 l3 l4 hD
  have hdc : Conserving (ofRealB d' : BT G 𝕜).shape (ofRealB d' : BT G 𝕜).rule (ofRealB d' : BT G 𝕜).blocks := conserving_mapBlocks _ d3
  have hde : ∀ e, entry (ofRealB d' : BT G 𝕜).shape (ofRealB d' : BT G 𝕜).blocks e = ((entry d'.shape d'.blocks e : ℝ) : 𝕜) :=
    fun e => entry_mapBlocks (fun x : ℝ => (x : 𝕜)) (by simp) d' e
  obtain ⟨dn, n1, n2, n3, n4, n5⟩ := unitSumB_div (d := (ofRealB d' : BT G 𝕜)) d1 d2 hdc c c1 (by
    rw [← c3]
    push_cast
    exact sum_congr rfl fun k _ => by rw [hde])
  have n2' : dn.shape = neutralised [b] := n2.trans d1
  have hnb : ∀ m, entry dn.shape dn.blocks [m] = ((entry d'.shape d'.blocks [m] / c : ℝ) : 𝕜) := fun m => by rw [n5 [m], hde]; push_cast; rfl
  have hdpos : ∀ k, k < dimSize b → live k → entry d'.shape d'.blocks [k] / c ≠ 0 := by
    intro k hk hl
    obtain ⟨g1, g2⟩ := hD.into k hk hl
    have g3 := hD.dLive k hk hl
    rw [g3]
    refine div_ne_zero ?_ c1.ne'
    have : 0 ≤ lst.getD (K0 - 1) 0 := by
      rw [List.getD_eq_getElem?_getD]
      cases h : lst[K0 - 1]? with
      | none => simp
      | some x =>
        obtain ⟨k, hk, rfl⟩ := List.mem_map.1 (l1.subset (List.mem_of_getElem? h))
        exact hσ0 k (List.mem_range.1 hk)
    have : 0 < σ (old k) := by nlinarith
    exact this.ne'
  have sleft : ∀ w : BT G 𝕜, w.shape = [l, s, b] → Conserving w.shape w.rule w.blocks → Sound w := by
    intro w hw hcw
    refine ⟨hcw, ?_⟩
    rw [hw]
    intro x hx
    simp at hx
    rcases hx with rfl | rfl | rfl
    · exact hso _ (by simp)
    · exact hso _ (by simp)
    · exact lb
  have popv : Populated [flipped t', flipped r] := by
    intro x hx
    simp at hx
    rcases hx with rfl | rfl
    · exact pop _ (by rw [dimSize_flipped]; exact zt)
    · exact pop _ (by rw [dimSize_flipped]; exact zr)
  have popu : Populated [l, s] := by
    intro x hx
    simp at hx
    rcases hx with rfl | rfl
    · exact pop _ zl
    · exact pop _ zs
  cases fwd with
  | true =>
    obtain ⟨vd, w0, w1, w2, w3, w4⟩ := mul_last v' dn [flipped t', flipped r] b v1 n2' n3 v3 n4 popv b1
    have w0 : mulInPlace v' dn = .ok vd := (mul_last_in_place v' dn [flipped t', flipped r] b v1 n2' v3 n4 popv b1).trans w0
    have w1 : vd.shape = [flipped t', flipped r, b] := w1
    obtain ⟨q, q0, q1, q2, q3, q4⟩ := site_of_right (hso t' (by simp)) (hso r (by simp)) lb vd w1 w3
    have hS : DM.DeadSites (denseOf u') (denseOf q) (fun e k => entry u'.shape u'.blocks (e ++ [k])) (fun e k => entry v'.shape v'.blocks (e ++ [k]))
        (fun k => entry d'.shape d'.blocks [k]) (fun _ => 1) (fun k => entry d'.shape d'.blocks [k] / c) c (dimSize l) (dimSize s) (dimSize t') (dimSize r)
        (dimSize b) live := by
      refine ⟨by rw [denseOf_dims, u1]; rfl, by rw [denseOf_dims, q1, ← dimSize_flipped b]; rfl, ?_, ?_, fun k _ => one_mul _, fun _ _ _ => one_ne_zero, hdpos⟩
      · intro x y k hx hy hk
        show entry u'.shape u'.blocks [x, y, k] = entry u'.shape u'.blocks [x, y, k] * _
        simp
      · intro k y z hk hy hz
        show entry q.shape q.blocks [k, y, z] = _
        have := w4 [y, z] k (.cons (by rw [dimSize_flipped]; exact hy) (.cons (by rw [dimSize_flipped]; exact hz) .nil)) hk
        simp only [List.cons_append, List.nil_append] at this
        rw [q4 k y z hk hy hz, this, hnb, star_mul']
        congr 1
        exact RCLike.conj_ofReal _
    refine ⟨u', q, b, _, ?_, u1, q1, sleft u' u1 u3, q3, by rw [q2, u2, w2, v2]; simp,
      cold_sites hσ0 hU hV hA he1 l1 hD c4 true hS (fun _ _ _ => rfl) (fun h => by cases h)⟩
    simp only [e1, andNext, andThen, n1, sc_item, if_true, w0, q0]
  | false =>
    obtain ⟨ud, w0, w1, w2, w3, w4⟩ := mul_last u' dn [l, s] b u1 n2' n3 u3 n4 popu b1
    have w0 : mulInPlace u' dn = .ok ud := (mul_last_in_place u' dn [l, s] b u1 n2' u3 n4 popu b1).trans w0
    have w1 : ud.shape = [l, s, b] := w1
    obtain ⟨q, q0, q1, q2, q3, q4⟩ := site_of_right (hso t' (by simp)) (hso r (by simp)) lb v' v1 v3
    obtain ⟨rr, r1⟩ := unsqueezed_ok (d := dn) n2' n4 (by simpa using b1)
    have hS : DM.DeadSites (denseOf ud) (denseOf q) (fun e k => entry u'.shape u'.blocks (e ++ [k])) (fun e k => entry v'.shape v'.blocks (e ++ [k]))
        (fun k => entry d'.shape d'.blocks [k]) (fun k => entry d'.shape d'.blocks [k] / c) (fun _ => 1) c (dimSize l) (dimSize s) (dimSize t') (dimSize r)
        (dimSize b) live := by
      refine ⟨by rw [denseOf_dims, w1]; rfl, by rw [denseOf_dims, q1, ← dimSize_flipped b]; rfl, ?_, ?_, fun k _ => mul_one _, hdpos, fun _ _ _ => one_ne_zero⟩
      · intro x y k hx hy hk
        show entry ud.shape ud.blocks [x, y, k] = entry u'.shape u'.blocks [x, y, k] * _
        have := w4 [x, y] k (.cons hx (.cons hy .nil)) hk
        simp only [List.cons_append, List.nil_append] at this
        rw [this, hnb]
      · intro k y z hk hy hz
        show entry q.shape q.blocks [k, y, z] = _
        rw [q4 k y z hk hy hz]
        simp
    refine ⟨ud, q, b, _, ?_, w1, q1, sleft ud w1 w3, q3, by rw [q2, w2, u2, v2]; simp,
      cold_sites hσ0 hU hV hA he1 l1 hD c4 false hS (fun h => by cases h) (fun _ _ _ => rfl)⟩
    simp only [e1, andNext, andThen, n1, sc_item, Bool.false_eq_true, if_false, w0, q0, r1]

end BN
end QuantiT
