import Verif.Lemmas.BlockNetwork
/-
Environments and two-site Hamiltonians of block chains.
-/
set_option linter.unusedSectionVars false
namespace QuantiT.BN
open Spec BT Finset
variable {G R : Type} [AddCommGroup G] [DecidableEq G] [Semiring R]

theorem gather_ungather {p o : List Nat} (hp : p.Perm (List.range o.length)) : gather p (ungather p o) = some o := by
  rw [gather_iff, List.forall₂_iff_get]
  refine ⟨perm_range_length hp, fun i hi hi' => ?_⟩
  have hj := perm_range_lt hp p[i] (List.getElem_mem hi)
  simp only [List.get_eq_getElem, ungather]
  rw [List.getElem?_map, List.getElem?_range (hj.trans_eq (perm_range_length hp).symm)]
  simp [(perm_range_nodup hp).idxOf_getElem i hi, List.getD_eq_getElem?_getD, hi']

theorem rep_permute {t : BT G R} {x : Blk R} (h : Rep t x) {sh sh' : Shape G} (e : t.shape = sh) (p : List Nat) (inp : List Int)
    (hp : p.Perm (List.range sh.length)) (hi : Spells sh.length inp p) (hg : gather p sh = some sh') :
    Runs (fun _ => some (permute t inp)) (permBlk p x) sh' t.rule := by
  subst e
  obtain ⟨t', h1, h2, h3, h4, h5⟩ := C20_permute t h.1.1 p inp hp hi
  rw [hg] at h2
  obtain rfl : t'.shape = sh' := by cases h2; rfl
  have hd := gather_map dimSize hg
  have hx : gather p x.dims = some (t'.shape.map dimSize) := by rw [h.dims]; exact hd
  refine ⟨0, t', ⟨t'.shape.map dimSize, fun o => x.f (ungather p o)⟩, fun _ _ => by rw [h1], ?_, rfl, h3, ⟨h4, ?_⟩, rfl, ?_⟩
  · rw [permBlk, hx]
    simp only
    rw [if_pos ⟨perm_range_nodup hp, by rw [h.dims, List.length_map, perm_range_length hp]⟩]
  · intro d hd'
    exact h.1.2 d ((gather_perm hp hg).mem_iff.mp hd')
  · intro o ho
    simp only [denseOf] at ho ⊢
    have hl : o.length = t.shape.length := by
      rw [inRange_length ho, List.length_map, gather_length hg, perm_range_length hp]
    have hpo : p.Perm (List.range o.length) := by rw [hl]; exact hp
    have hu : (ungather p o).length = t.shape.length := by rw [ungather, List.length_map, List.length_range, perm_range_length hp]
    have hr : InRange (ungather p o) (t.shape.map dimSize) :=
      inRange_gather_inv (by rw [List.length_map]; exact hp) (by rw [hu, List.length_map]) (gather_ungather hpo) hd ho
    rw [h.f hr, h5 _ _ hr (gather_ungather hpo)]

theorem runs_envRight {c : R → R} (h0 : c 0 = 0) {W A Rt : BT G R} {w x l : Blk R} (hW : Rep W w) (hA : Rep A x)
    (hR : Rep Rt l) {r0 r1 a0 a1 a2 w0 w2 w3 : Dim G}
    (sR : Rt.shape = [r0, r1, a2]) (sA : A.shape = [a0, a1, a2]) (sW : W.shape = [w0, a1, w2, w3])
    (o0 : Opposite r0 a2) (o1 : Opposite r1 w2) (o2 : Opposite a1 w3) :
    Runs (fun n => envRight n c W A Rt) (MP.envRight c w x l) [a0, w0, flipped a0] (Rt.rule + W.rule) := by
  refine runs_bind (q := Rt.rule + A.rule) (sh := [r1, a2, a0, a1]) ?_ fun t z e1 e2 ht => ?_
  · exact runs_tdot hR hA [0] [2] (by decide) (by decide) sR sA rfl rfl rfl rfl (contr1 o0) (by simp) (by simp)
  refine runs_bind (q := Rt.rule + A.rule + W.rule) (sh := [a2, a0, w0, a1]) ?_ fun t' z' e1' e2' ht' => ?_
  · rw [← e2]
    exact runs_tdot ht hW [0, 3] [2, 3] (by decide) (by decide) e1 sW rfl rfl rfl rfl (contr2 o1 o2) (by simp) (by simp)
  have e : Rt.rule + W.rule = t'.rule + (BT.conj c A).rule := by
    show _ = t'.rule + -A.rule
    rw [e2']; abel
  rw [e]
  have sC : (BT.conj c A).shape = [flipped a0, flipped a1, flipped a2] := by rw [conj_shape, sA]; rfl
  exact runs_tdot ht' (rep_conj h0 hA) [3, 0] [1, 2] (by decide) (by decide) e1' sC rfl rfl rfl rfl
    (contr2 (opposite_flipped _) (opposite_flipped _)) (by simp) (by simp)

theorem runs_twoSite {W1 W2 : BT G R} {x y : Blk R} (h1 : Rep W1 x) (h2 : Rep W2 y) {u0 u1 u2 u3 v0 v1 v2 v3 : Dim G}
    (s1 : W1.shape = [u0, u1, u2, u3]) (s2 : W2.shape = [v0, v1, v2, v3]) (o : Opposite u2 v0) :
    Runs (fun n => twoSite n W1 W2) (MP.twoSite x y) [u0, u1, v1, v2, u3, v3] (W1.rule + W2.rule) := by
  refine runs_bind (q := W1.rule + W2.rule) (sh := [u0, u1, u3, v1, v2, v3]) ?_ fun t z e1 e2 ht => ?_
  · exact runs_tdot h1 h2 [2] [0] (by decide) (by decide) s1 s2 rfl rfl rfl rfl (contr1 o) (by simp) (by simp)
  rw [← e2]
  exact rep_permute ht e1 [0, 1, 3, 4, 2, 5] _ (by simp only [List.length_cons, List.length_nil]; decide)
    (by simp [Spells]) rfl

theorem runs_hamil2site {θ H L Rt : BT G R} {x h l r : Blk R} (hθ : Rep θ x) (hH : Rep H h) (hL : Rep L l) (hR : Rep Rt r)
    {l0 l1 l2 r0 r1 r2 t0 t1 t2 t3 u0 u1 v1 v2 u3 v3 : Dim G}
    (sL : L.shape = [l0, l1, l2]) (sR : Rt.shape = [r0, r1, r2]) (sθ : θ.shape = [t0, t1, t2, t3])
    (sH : H.shape = [u0, u1, v1, v2, u3, v3]) (o0 : Opposite l0 t0) (o1 : Opposite l1 u0) (o2 : Opposite t1 u3)
    (o3 : Opposite t2 v3) (o4 : Opposite t3 r0) (o5 : Opposite v2 r1) :
    Runs (fun n => hamil2site n θ H L Rt) (MP.hamil2site x h l r) [l2, u1, v1, r2] (L.rule + θ.rule + H.rule + Rt.rule) := by
  refine runs_bind (q := L.rule + θ.rule) (sh := [l1, l2, t1, t2, t3]) ?_ fun t z e1 e2 ht => ?_
  · exact runs_tdot hL hθ [0] [0] (by decide) (by decide) sL sθ rfl rfl rfl rfl (contr1 o0) (by simp) (by simp)
  refine runs_bind (q := L.rule + θ.rule + H.rule) (sh := [l2, t3, u1, v1, v2]) ?_ fun t' z' e1' e2' ht' => ?_
  · rw [← e2]
    exact runs_tdot ht hH [0, 2, 3] [0, 4, 5] (by decide) (by decide) e1 sH rfl rfl rfl rfl (contr3 o1 o2 o3) (by simp) (by simp)
  rw [← e2']
  exact runs_tdot ht' hR [1, 4] [0, 1] (by decide) (by decide) e1' sR rfl rfl rfl rfl (contr2 o4 o5) (by simp) (by simp)

theorem opposite_symm {d d' : Dim G} (h : Opposite d d') : Opposite d' d := by
  rw [opposite_eq h]; exact flipped_opposite _

theorem leftEnvs_eq_loop (n : Nat) (c : R → R) : ∀ (a Ws : List (BT G R)) (L : BT G R),
    leftEnvs n c a Ws L = contractLoop n c a a Ws L
  | [], _, _ => by simp [leftEnvs, contractLoop]
  | A :: a, [], L => by simp [leftEnvs, contractLoop]
  | A :: a, W :: Ws, L => by
    simp only [leftEnvs, contractLoop]
    congr 1
    funext L
    exact leftEnvs_eq_loop n c a Ws L

theorem runs_rightEnvs {c : R → R} (h0 : c 0 = 0) (Rt : BT G R) (r : Blk R) (r0 r1 : Dim G) (hR : Rep Rt r) :
    ∀ (a Ws : List (BT G R)), a ≠ [] → BlockFit a Ws a → Rt.shape = [r0, r1, rightDim a] → Opposite r0 (rightDim a) →
      Opposite r1 (rightDim Ws) →
      Runs (fun n => rightEnvs n c a Ws Rt) (MP.rightEnvs c (a.map denseOf) (Ws.map denseOf) r)
        [leftDim a, leftDim Ws, flipped (leftDim a)] (Rt.rule + (Ws.map BT.rule).sum)
  | [], _, h, _ => absurd rfl h
  | A :: a, Ws, _, hf => by
    intro sR o0 o1
    rcases Ws with _ | ⟨W, Ws⟩
    · cases hf.cols
    obtain ⟨SA, kA⟩ := hf.ket.1 A (by simp)
    obtain ⟨SW, kW⟩ := hf.op.1 W (by simp)
    have hcol := (List.forall₂_cons.mp hf.cols).1
    have hrow := (List.forall₂_cons.mp hf.rows).1
    simp only [List.map_cons, List.sum_cons]
    rcases a with _ | ⟨A', a⟩
    · have h1 := (List.forall₂_cons.mp hf.cols).2
      cases h1
      simp only [List.map_nil, List.sum_nil, add_zero]
      have hp := runs_pure hR
      rw [sR] at hp
      refine runs_bind hp fun t z e1 e2 ht => ?_
      rw [← e2]
      exact runs_envRight h0 (Rep.self SW) (Rep.self SA) ht e1 (shape3 kA) (by rw [← hrow]; exact shape4 kW)
        (by simpa [rightDim] using o0) (by simpa [rightDim] using o1) hcol
    · have h1 := (List.forall₂_cons.mp hf.cols).2
      rcases Ws with _ | ⟨W', Ws⟩
      · cases h1
      rw [rightDim_cons] at sR o0 o1
      refine runs_bind (runs_rightEnvs h0 Rt r r0 r1 hR (A' :: a) (W' :: Ws) (by simp) (blockFit_tail hf) sR o0 o1)
        fun t z e1 e2 ht => ?_
      have e : Rt.rule + (W.rule + (List.map BT.rule (W' :: Ws)).sum) = t.rule + W.rule := by rw [e2]; abel
      rw [e]
      refine runs_envRight h0 (Rep.self SW) (Rep.self SA) ht (r0 := leftDim (A' :: a)) (r1 := leftDim (W' :: Ws)) ?_
        (shape3 kA) (by rw [← hrow]; exact shape4 kW) ?_ ?_ hcol
      · rw [e1]
        simp only [leftDim, List.head?_cons]
        rw [opposite_eq (chained_next hf.ket), flipped_flipped]
      · exact opposite_symm (chained_next hf.ket)
      · exact opposite_symm (chained_next hf.op)

theorem forall₂_split {α β : Type} {S : α → β → Prop} : ∀ {x y : List α} {x' y' : List β}, x'.length = x.length →
    List.Forall₂ S (x ++ y) (x' ++ y') → List.Forall₂ S x x' ∧ List.Forall₂ S y y'
  | [], y, x', y', hl, h => by
    have : x' = [] := List.length_eq_zero_iff.mp hl
    subst this
    exact ⟨.nil, h⟩
  | a :: x, y, x', y', hl, h => by
    rcases x' with _ | ⟨b, x'⟩
    · simp at hl
    · obtain ⟨h1, h2⟩ := List.forall₂_cons.mp h
      obtain ⟨h3, h4⟩ := forall₂_split (by simpa using hl) h2
      exact ⟨.cons h1 h3, h4⟩

theorem chained_append {k : Nat} : ∀ {x y : List (BT G R)}, Chained k (x ++ y) →
    Chained k x ∧ Chained k y ∧ (x ≠ [] → y ≠ [] → Opposite (rightDim x) (leftDim y))
  | [], y, h => ⟨⟨by simp, by simp⟩, h, fun h => absurd rfl h⟩
  | [A], y, h => by
    refine ⟨⟨fun t ht => h.1 t (by simp at ht; simp [ht]), fun i t t' _ h2 => by simp at h2⟩, chained_tail h, fun _ hy => ?_⟩
    rcases y with _ | ⟨B, y⟩
    · exact absurd rfl hy
    · exact chained_next h
  | A :: B :: x, y, h => by
    obtain ⟨h1, h2, h3⟩ := chained_append (x := B :: x) (y := y) (chained_tail h)
    refine ⟨⟨fun t ht => h.1 t (by simp only [List.mem_cons, List.cons_append, List.mem_append] at ht ⊢; tauto), ?_⟩, h2, fun _ hy => ?_⟩
    · intro i t t' e1 e2
      rcases i with _ | i
      · simp only [List.getElem?_cons_zero, Option.some.injEq, zero_add, List.getElem?_cons_succ] at e1 e2
        subst e1; subst e2
        exact chained_next h
      · exact h1.2 i t t' (by simpa using e1) (by simpa using e2)
    · rw [rightDim_cons]; exact h3 (by simp) hy

theorem denseLeftEnvs_eq (c : R → R) : ∀ (a Ws : List (Blk R)) (L : Blk R), MP.leftEnvs c a Ws L = MP.contractLoop c a a Ws L
  | [], _, _ => by simp [MP.leftEnvs, MP.contractLoop]
  | A :: a, [], L => by simp [MP.leftEnvs, MP.contractLoop]
  | A :: a, W :: Ws, L => by
    simp only [MP.leftEnvs, MP.contractLoop]
    congr 1
    funext L
    exact denseLeftEnvs_eq c a Ws L

theorem runs_leftPart {c : R → R} (h0 : c 0 = 0) {pre preW : List (BT G R)} {A W1 : BT G R} {post postW : List (BT G R)}
    (h : BlockFit (pre ++ A :: post) (preW ++ W1 :: postW) (pre ++ A :: post)) (hl : preW.length = pre.length)
    {L : BT G R} {l : Blk R} (hL : Rep L l) (l0 l1 : Dim G) (sL : L.shape = [l0, l1, leftDim (pre ++ A :: post)])
    (oL0 : Opposite l0 (leftDim (pre ++ A :: post))) (oL1 : Opposite l1 (leftDim (preW ++ W1 :: postW))) :
    ∃ e0 e1, Runs (fun n => leftEnvs n c pre preW L) (MP.leftEnvs c (pre.map denseOf) (preW.map denseOf) l)
        [e0, e1, A.shape.getD 0 []] (L.rule + (preW.map BT.rule).sum) ∧
      Opposite e0 (A.shape.getD 0 []) ∧ Opposite e1 (W1.shape.getD 0 []) := by
  rcases pre with _ | ⟨P, pre⟩
  · have : preW = [] := List.length_eq_zero_iff.mp hl
    subst this
    refine ⟨l0, l1, ?_, oL0, oL1⟩
    have hp := runs_pure hL
    rw [sL] at hp
    simpa [leftEnvs, MP.leftEnvs, leftDim] using hp
  · rcases preW with _ | ⟨Q, preW⟩
    · simp at hl
    obtain ⟨k1, _, k3⟩ := chained_append h.ket
    obtain ⟨w1, _, w3⟩ := chained_append h.op
    obtain ⟨c1, _⟩ := forall₂_split hl h.cols
    obtain ⟨d1, _⟩ := forall₂_split hl.symm h.rows
    have run := runs_contractLoop h0 (P :: pre) (Q :: preW) (P :: pre) (by simp) ⟨k1, w1, k1, c1, d1⟩ L _ l0 l1 hL
      sL oL0 oL1
    simp only [← leftEnvs_eq_loop, ← denseLeftEnvs_eq] at run
    refine ⟨_, _, ?_, k3 (by simp) (by simp), w3 (by simp) (by simp)⟩
    have e1 : A.shape.getD 0 [] = flipped (rightDim (P :: pre)) := opposite_eq (k3 (by simp) (by simp))
    have e2 : L.rule + (List.map BT.rule (Q :: preW)).sum = L.rule + (List.map BT.rule (P :: pre)).sum +
      (List.map BT.rule (Q :: preW)).sum - (List.map BT.rule (P :: pre)).sum := by abel
    rw [e1, e2]
    exact run

theorem runs_rightPart {c : R → R} (h0 : c 0 = 0) {pre preW : List (BT G R)} {B W2 : BT G R} {post postW : List (BT G R)}
    (h : BlockFit (pre ++ B :: post) (preW ++ W2 :: postW) (pre ++ B :: post)) (hl : preW.length = pre.length)
    {Rt : BT G R} {r : Blk R} (hR : Rep Rt r) (r0 r1 : Dim G) (sR : Rt.shape = [r0, r1, rightDim (pre ++ B :: post)])
    (oR0 : Opposite r0 (rightDim (pre ++ B :: post))) (oR1 : Opposite r1 (rightDim (preW ++ W2 :: postW))) :
    ∃ e0 e1, Runs (fun n => rightEnvs n c post postW Rt) (MP.rightEnvs c (post.map denseOf) (postW.map denseOf) r)
        [e0, e1, B.shape.getD 2 []] (Rt.rule + (postW.map BT.rule).sum) ∧
      Opposite (B.shape.getD 2 []) e0 ∧ Opposite (W2.shape.getD 2 []) e1 := by
  obtain ⟨_, k1, _⟩ := chained_append h.ket
  obtain ⟨_, w1, _⟩ := chained_append h.op
  obtain ⟨_, c1⟩ := forall₂_split hl h.cols
  obtain ⟨_, d1⟩ := forall₂_split hl.symm h.rows
  have f1 : BlockFit (B :: post) (W2 :: postW) (B :: post) := ⟨k1, w1, k1, c1, d1⟩
  have g1 : ∀ (x : List (BT G R)) (y : BT G R) z, rightDim (x ++ y :: z) = rightDim (y :: z) := by
    intro x y z
    rw [rightDim, rightDim, List.getLast?_append_of_ne_nil _ (by simp)]
  rw [g1] at sR oR0 oR1
  rcases post with _ | ⟨P, post⟩
  · have hp : postW = [] := by
      have := f1.cols.length_eq
      simpa using this.symm
    subst hp
    refine ⟨r0, r1, ?_, opposite_symm oR0, opposite_symm oR1⟩
    have hp := runs_pure hR
    rw [sR] at hp
    simpa [rightEnvs, MP.rightEnvs, rightDim] using hp
  · rcases postW with _ | ⟨Q, postW⟩
    · have := f1.cols.length_eq
      simp at this
    rw [rightDim_cons] at sR oR0 oR1
    have run := runs_rightEnvs h0 Rt _ r0 r1 hR (P :: post) (Q :: postW) (by simp) (blockFit_tail f1) sR oR0 oR1
    refine ⟨_, _, ?_, chained_next k1, chained_next w1⟩
    have e1 : P.shape.getD 0 [] = flipped (B.shape.getD 2 []) := opposite_eq (chained_next k1)
    have e2 : B.shape.getD 2 [] = flipped (leftDim (P :: post)) := by
      simp only [leftDim, List.head?_cons]; rw [e1, flipped_flipped]
    rw [e2]
    exact run

end QuantiT.BN
