import Verif.Lemmas.BlockCut2
import Verif.Lemmas.CutExact
import Verif.Model.Coalesce
import Verif.Spec.Coalesce
/-
One turn of the compression of an operator chain.
-/
namespace QuantiT.BN
open Spec BT MP Finset
variable {G 𝕜 : Type} [RCLike 𝕜]

theorem dot_left4 {R : Type} [AddCommGroup G] [DecidableEq G] [Semiring R] {x b : BT G R} {n n' k s r t : Dim G} (sx : Sound x) (sb : Sound b)
    (hx : x.shape = [n, k]) (hb : b.shape = [n', s, r, t]) (hn : Opposite n n') :
    ∃ N z, (∀ fuel, N ≤ fuel → tensordot fuel x b [0] [0] = some (.ok z)) ∧ z.shape = [k, s, r, t] ∧ z.rule = x.rule + b.rule ∧
      Conserving z.shape z.rule z.blocks ∧ ∀ y c j c', y < dimSize k → c < dimSize s → j < dimSize r → c' < dimSize t →
        entry z.shape z.blocks [y, c, j, c'] = ∑ i ∈ range (dimSize n), entry x.shape x.blocks [i, y] * entry b.shape b.blocks [i, c, j, c'] := by
  obtain ⟨z, h1, h2, h3, h4, h5⟩ := C23_returns x b sx.1 sb.1 [0] [0] (by simp) (by simp) [k] [s, r, t] [n] [n']
    (by rw [hx]; rfl) (by rw [hb]; rfl) (by rw [hx]; rfl) (by rw [hb]; rfl) (.cons hn .nil) sx.2 sb.2
    (.inr ⟨by simp [hx], .inr (by simp [hb])⟩) _ le_rfl
  refine ⟨_, z, fun fuel hf => tensordot_mono hf h1, h2, h3, h4, fun y c j c' hy hc hj hc' => ?_⟩
  have := h5 [y] [c, j, c'] (.cons hy .nil) (.cons hc (.cons hj (.cons hc' .nil)))
  rw [show ([n] : Shape G).map dimSize = [dimSize n] from rfl, sum_indices1] at this
  exact this

/-- Exchanging the last two of four dimensions. -/
theorem swap_last [AddCommGroup G] [DecidableEq G] {W : BT G 𝕜} {a b c d : Dim G} (hc : Conserving W.shape W.rule W.blocks) (hs : W.shape = [a, b, c, d]) :
    ∃ q, permute W [0, 1, 3, 2] = .ok q ∧ q.shape = [a, b, d, c] ∧ q.rule = W.rule ∧ Conserving q.shape q.rule q.blocks ∧
      ∀ x y z w, x < dimSize a → y < dimSize b → z < dimSize c → w < dimSize d →
        entry q.shape q.blocks [x, y, w, z] = entry W.shape W.blocks [x, y, z, w] := by
  obtain ⟨q, e2, q1, q2, q3, q4⟩ := C20_permute W hc [0, 1, 3, 2] [0, 1, 3, 2]
    (by rw [hs]; exact (by decide : [0, 1, 3, 2].Perm (List.range 4)))
    (by
      rw [hs]
      exact .cons ⟨(by decide : 0 < 4), .inl rfl⟩ (.cons ⟨(by decide : 1 < 4), .inl rfl⟩ (.cons ⟨(by decide : 3 < 4), .inl rfl⟩
        (.cons ⟨(by decide : 2 < 4), .inl rfl⟩ .nil))))
  have q1 : q.shape = [a, b, d, c] := by rw [hs] at q1; exact (Option.some.inj q1).symm
  refine ⟨q, e2, q1, q2, q3, fun x y z w hx hy hz hw => ?_⟩
  rw [q4 [x, y, z, w] [x, y, w, z] (by rw [hs]; exact .cons hx (.cons hy (.cons hz (.cons hw .nil)))) rfl]

/-- The columns of a tensor of an operator chain are orthogonal and none is zero. -/
def OrthoCols (A : BT G 𝕜) (l s b t : Dim G) : Prop :=
  ∀ k k', k < dimSize b → k' < dimSize b → ((∑ e ∈ configs [dimSize l, dimSize s, dimSize t],
    star (entry A.shape A.blocks [e.getD 0 0, e.getD 1 0, k, e.getD 2 0]) * entry A.shape A.blocks [e.getD 0 0, e.getD 1 0, k', e.getD 2 0] = 0) ↔ k ≠ k')

theorem coalesceStep_ok [AddCommGroup G] [LinearOrder G] {fac : Blk 𝕜 → Blk 𝕜 × Blk 𝕜 × Blk 𝕜} (hfac : DenseSvd fac) {W next : BT G 𝕜} {l s n t n' s' r t' : Dim G}
    (sW : Sound W) (sN : Sound next) (dW : W.shape = [l, s, n, t]) (dN : next.shape = [n', s', r, t']) (hnn : Opposite n n')
    (hz : ∀ d ∈ W.shape, 0 < dimSize d) (hne : NoEmpty W.shape) (hsm : dimSize l * dimSize s * dimSize t < 2 ^ 63) (eps : ℝ) (he0 : 0 < eps) (he1 : eps ≤ 1 / 2)
    (hre : ∀ k, k < dimSize n → ∃ k' x c c', chargeAt n k' = chargeAt n k ∧ entry W.shape W.blocks [x, c, k', c'] ≠ 0) :
    ∃ N A B b, (∀ fuel, N ≤ fuel → coalesceStep fuel fac eps 0 W next = some (.ok (A, B))) ∧ A.shape = [l, s, b, t] ∧ B.shape = [flipped b, s', r, t'] ∧
      A.rule = W.rule ∧ B.rule = next.rule ∧ Sound A ∧ Sound B ∧ (b ≠ [] ∧ (∀ s ∈ b, 0 < s.1) ∧ dimSize b ≤ dimSize n ∧ dimSize b ≤ dimSize l * dimSize s * dimSize t) ∧
      (∀ x c k c' d d', x < dimSize l → c < dimSize s → c' < dimSize t → d < dimSize s' → k < dimSize r → d' < dimSize t' →
        ∑ y ∈ range (dimSize b), entry A.shape A.blocks [x, c, y, c'] * entry B.shape B.blocks [y, d, k, d'] =
          ∑ y ∈ range (dimSize n), entry W.shape W.blocks [x, c, y, c'] * entry next.shape next.blocks [y, d, k, d']) ∧
      OrthoCols A l s b t := by
  obtain ⟨q, e1, q1, q2, q3, q4⟩ := swap_last sW.1 dW
  have hin : ∀ {x c k c'}, entry W.shape W.blocks [x, c, k, c'] ≠ 0 → x < dimSize l ∧ c < dimSize s ∧ k < dimSize n ∧ c' < dimSize t := by
    intro x c k c' h
    have : ∃ p, locateAll W.shape [x, c, k, c'] = some p := by
      unfold entry at h
      cases hl : locateAll W.shape [x, c, k, c'] with
      | none => rw [hl] at h; exact absurd rfl h
      | some p => exact ⟨p, rfl⟩
    have := locateAll_isSome.1 this
    rw [dW] at this
    unfold InRange at this
    cases this with
    | cons g1 this => cases this with
      | cons g2 this => cases this with
        | cons g3 this => cases this with
          | cons g4 this => exact ⟨g1, g2, g3, g4⟩
  have hprod : (([l, s, t] : Shape G).map dimSize).prod = dimSize l * dimSize s * dimSize t := by simp [mul_assoc]
  have hmem : ∀ d ∈ q.shape, d ∈ W.shape := by
    rw [q1, dW]
    intro d hd
    simp at hd ⊢
    tauto
  obtain ⟨u, v, d, b, f1, ⟨u1, u2, u3⟩, ⟨d1, d2, d3⟩, ⟨v1, v2, v3⟩, ⟨b1, b2, b3, b4⟩, hpos, hp, ho⟩ := svdCutB_exact hfac q [l, s, t] n q1 (by simp) q3
    (fun d hd => hz d (hmem d hd)) (fun d hd => hne d (hmem d hd)) (by rw [hprod]; exact hsm) eps he0 he1 (2 ^ 64 - 1) (by rw [hprod]; norm_num at hsm ⊢; omega) (by
      intro k hk
      obtain ⟨k', x, c, c', g1, g2⟩ := hre k hk
      obtain ⟨i1, i2, i3, i4⟩ := hin g2
      refine ⟨[x, c, c'], k', .cons i1 (.cons i2 (.cons i4 .nil)), i3, g1, ?_⟩
      show entry q.shape q.blocks [x, c, c', k'] ≠ 0
      rw [q4 x c k' c' i1 i2 i3 i4]
      exact g2)
  have f1 : svdCutB fac eps q 3 0 1 (2 ^ 64 - 1) (fun x => x ^ 2) = .ok (u, ofRealB d, v) := f1
  have hdc : Conserving (ofRealB d : BT G 𝕜).shape (ofRealB d : BT G 𝕜).rule (ofRealB d : BT G 𝕜).blocks := conserving_mapBlocks _ d3
  have hde : ∀ e, entry (ofRealB d : BT G 𝕜).shape (ofRealB d : BT G 𝕜).blocks e = ((entry d.shape d.blocks e : ℝ) : 𝕜) :=
    fun e => entry_mapBlocks _ (by simp) d e
  have hpop : Populated [l, s, t] := by
    intro x hx
    rintro rfl
    have := hz [] (by rw [dW]; simp at hx ⊢; tauto)
    simp [dimSize] at this
  obtain ⟨ud, w0, w1, w2, w3, w4⟩ := mul_last u (ofRealB d) [l, s, t] b u1 d1 d2 u3 hdc hpop b1
  have w0' : mulInPlace u (ofRealB d) = .ok ud := by rw [mul_last_in_place u (ofRealB d) [l, s, t] b u1 d1 u3 hdc hpop b1, w0]
  have lb : b.length < 2 ^ 63 := by
    have := sW.2 n (by rw [dW]; simp)
    omega
  have sv : Sound (conj star v) := by
    refine Sound.conj ⟨v3, fun x hx => ?_⟩
    rw [v1] at hx
    simp at hx
    rcases hx with rfl | rfl
    · simpa [flipped] using sW.2 n (by rw [dW]; simp)
    · exact lb
  have cs : (conj star v).shape = [n, flipped b] := by rw [conj_shape, v1]; simp [flipped_flipped]
  obtain ⟨N, z, g1, g2, g3, g4, g5⟩ := dot_left4 sv sN cs dN hnn
  obtain ⟨-, ce, cr, -⟩ := C27_conj (star : 𝕜 → 𝕜) (star_zero 𝕜) star_star v
  obtain ⟨A, p1, p2, p3, p4, p5⟩ := swap_last (W := ud) w3 w1
  have hA : ∀ x c y c', x < dimSize l → c < dimSize s → y < dimSize b → c' < dimSize t →
      entry A.shape A.blocks [x, c, y, c'] = entry u.shape u.blocks [x, c, c', y] * ((entry d.shape d.blocks [y] : ℝ) : 𝕜) := by
    intro x c y c' hx hc hy hc'
    rw [p5 x c c' y hx hc hc' hy]
    have := w4 [x, c, c'] y (.cons hx (.cons hc (.cons hc' .nil))) hy
    rw [hde] at this
    exact this
  refine ⟨N, A, z, b, ?_, p2, g2, ?_, ?_, ⟨p4, ?_⟩, ⟨g4, ?_⟩, ⟨b1, b3, b4, ?_⟩, ?_, ?_⟩
  · intro fuel hf
    unfold coalesceStep
    simp only [e1, andThen_ok, f1, w0', g1 fuel hf, p1]
  · rw [p3, w2, u2, q2]
  · rw [g3, cr, v2]; simp
  · rw [p2]
    intro x hx
    simp at hx
    rcases hx with rfl | rfl | rfl | rfl
    · exact sW.2 _ (by rw [dW]; simp)
    · exact sW.2 _ (by rw [dW]; simp)
    · exact lb
    · exact sW.2 _ (by rw [dW]; simp)
  · rw [g2]
    intro x hx
    simp at hx
    rcases hx with rfl | rfl | rfl | rfl
    · simpa [flipped] using lb
    · exact sN.2 _ (by rw [dN]; simp)
    · exact sN.2 _ (by rw [dN]; simp)
    · exact sN.2 _ (by rw [dN]; simp)
  · have := columns_le (K := dimSize b) (U := fun e k => entry u.shape u.blocks (e ++ [k])) fun a c ha hc => (ho a c ha hc).1
    rwa [card_configs, hprod] at this
  · intro x c k c' j j' hx hc hc' hj hk hj'
    have h2 : ∀ y ∈ range (dimSize n), entry W.shape W.blocks [x, c, y, c'] * entry next.shape next.blocks [y, j, k, j']
        = ∑ m ∈ range (dimSize b), entry u.shape u.blocks [x, c, c', m] * ((entry d.shape d.blocks [m] : ℝ) : 𝕜) * star (entry v.shape v.blocks [y, m]) *
            entry next.shape next.blocks [y, j, k, j'] := by
      intro y hy
      have := hp [x, c, c'] y (.cons hx (.cons hc (.cons hc' .nil))) (mem_range.1 hy)
      rw [← q4 x c y c' hx hc (mem_range.1 hy) hc', ← sum_mul]
      exact congrArg (· * _) this
    rw [sum_congr rfl h2, sum_comm]
    refine sum_congr rfl fun m hm => ?_
    have hm := mem_range.1 hm
    rw [hA x c m c' hx hc hm hc', g5 m j k j' (by rw [dimSize_flipped]; exact hm) hj hk hj', mul_sum]
    refine sum_congr rfl fun y _ => ?_
    rw [ce]
    ring
  · intro k k' hk hk'
    have h2 : ∀ e ∈ configs [dimSize l, dimSize s, dimSize t],
        star (entry A.shape A.blocks [e.getD 0 0, e.getD 1 0, k, e.getD 2 0]) * entry A.shape A.blocks [e.getD 0 0, e.getD 1 0, k', e.getD 2 0]
        = star (entry u.shape u.blocks (e ++ [k])) * entry u.shape u.blocks (e ++ [k']) *
            (((entry d.shape d.blocks [k] : ℝ) : 𝕜) * ((entry d.shape d.blocks [k'] : ℝ) : 𝕜)) := by
      intro e he
      have he := MP.mem_configs.1 he
      unfold InRange at he
      obtain ⟨x, e', hx, he', rfl⟩ := List.forall₂_cons_right_iff.1 he
      obtain ⟨c, e'', hc, he'', rfl⟩ := List.forall₂_cons_right_iff.1 he'
      obtain ⟨c', e''', hc', he''', rfl⟩ := List.forall₂_cons_right_iff.1 he''
      cases he'''
      simp only [List.getD_cons_zero, List.getD_cons_succ]
      rw [hA x c k c' hx hc hk hc', hA x c k' c' hx hc hk' hc', star_mul]
      simp only [List.cons_append, List.nil_append, RCLike.star_def, RCLike.conj_ofReal]
      ring
    rw [sum_congr rfl h2, ← sum_mul, show configs [dimSize l, dimSize s, dimSize t] = configs (([l, s, t] : Shape G).map dimSize) from rfl, (ho k k' hk hk').1]
    have hd0 : ((entry d.shape d.blocks [k] : ℝ) : 𝕜) ≠ 0 := by exact_mod_cast (hpos k hk).ne'
    have hd0' : ((entry d.shape d.blocks [k'] : ℝ) : 𝕜) ≠ 0 := by exact_mod_cast (hpos k' hk').ne'
    by_cases h : k = k'
    · simp [h, hd0']
    · simp [h]

end QuantiT.BN
