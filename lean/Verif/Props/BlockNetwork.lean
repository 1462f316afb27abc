import Verif.Lemmas.BlockNetwork2
import Verif.Props.Network
import Verif.Props.Environment
/-
C75, C76 — contractions of block chains.
-/
set_option linter.unusedSectionVars false
namespace QuantiT.BN
open Spec BT Finset
variable {G R : Type}

section
variable [AddCommGroup G] [Zero R]

theorem dimSize_opposite {d d' : Dim G} (h : Opposite d d') : dimSize d = dimSize d' := by
  induction h with
  | nil => rfl
  | cons h _ ih => simp only [dimSize, List.map_cons, List.sum_cons] at ih ⊢; rw [h.1, ih]

theorem getD_dimSize (s : Shape G) (i : Nat) : (s.map dimSize).getD i 0 = dimSize (s.getD i []) := by
  simp only [List.getD_eq_getElem?_getD, List.getElem?_map]
  rcases s[i]? with _ | d <;> simp [dimSize]

theorem dimSize_flipped (d : Dim G) : dimSize (flipped d) = dimSize d := by simp [dimSize, flipped, Function.comp_def]

theorem denseOf_dims (t : BT G R) : (denseOf t).dims = t.shape.map dimSize := rfl

theorem linked_dense {k : Nat} {a : List (BT G R)} (hk : 2 < k) (h : Chained k a) : Linked k ((a.map denseOf).map Blk.dims) := by
  refine ⟨fun s hs => ?_, fun i s s' h1 h2 => ?_⟩
  · simp only [List.map_map, List.mem_map, Function.comp_apply] at hs
    obtain ⟨t, ht, rfl⟩ := hs
    rw [denseOf_dims, List.length_map, (h.1 t ht).2]
  · simp only [List.map_map, List.getElem?_map, Option.map_eq_some_iff, Function.comp_apply] at h1 h2
    obtain ⟨t, ht, rfl⟩ := h1
    obtain ⟨t', ht', rfl⟩ := h2
    have l1 := (h.1 t (List.mem_of_getElem? ht)).2
    have l2 := (h.1 t' (List.mem_of_getElem? ht')).2
    have := dimSize_opposite (h.2 i t t' ht ht')
    rw [← getD_dimSize, ← getD_dimSize] at this
    simp only [denseOf_dims]
    have m1 : 2 < (t.shape.map dimSize).length := by rw [List.length_map]; omega
    have m2 : 0 < (t'.shape.map dimSize).length := by rw [List.length_map]; omega
    rw [List.getD_eq_getElem _ _ m1, List.getD_eq_getElem _ _ m2] at this
    rw [List.getElem?_eq_getElem m1, List.getElem?_eq_getElem m2, this]

theorem fit_dense {a Ws b : List (BT G R)} (h : BlockFit a Ws b) :
    Fit (a.map denseOf) (Ws.map denseOf) (b.map denseOf) := by
  refine ⟨linked_dense (by omega) h.ket, linked_dense (by omega) h.op, linked_dense (by omega) h.bra, ?_, ?_⟩
  · have := h.cols
    clear h
    simp only [phys, List.map_map, Function.comp_def, denseOf_dims, getD_dimSize]
    induction this with
    | nil => rfl
    | cons h _ ih => simp only [List.map_cons, ih, dimSize_opposite h]
  · have := h.rows
    clear h
    simp only [phys, List.map_map, Function.comp_def, denseOf_dims, getD_dimSize]
    induction this with
    | nil => rfl
    | cons h _ ih => simp only [List.map_cons, ih, h]

theorem leftEnd_dense (a : List (BT G R)) : leftEnd (a.map denseOf) = dimSize (leftDim a) := by
  rcases a with _ | ⟨A, a⟩
  · rfl
  · simp only [leftEnd, leftDim, List.map_cons, List.head?_cons, denseOf_dims, getD_dimSize]

theorem rightEnd_dense (a : List (BT G R)) : rightEnd (a.map denseOf) = dimSize (rightDim a) := by
  simp only [rightEnd, rightDim, List.getLast?_map]
  rcases a.getLast? with _ | A
  · rfl
  · simp only [Option.map_some, denseOf_dims, getD_dimSize]

end

variable [AddCommGroup G] [DecidableEq G] [CommSemiring R] [StarRing R]

/-- C75: contracting an operator between two block states gives the sum over all configurations, between the edges
given, of the dense tensors these block tensors stand for; it finishes, and the result is a scalar whose rule is the
sum of the rules (those of `b` negated). -/
theorem C75_operator (a Ws b : List (BT G R)) (L Rt : BT G R) (h : BlockFit a Ws b) (ha : a ≠ []) (hL : Sound L) (hR : Sound Rt)
    (l0 l1 r0 r1 : Dim G) (sL : L.shape = [l0, l1, leftDim b]) (oL0 : Opposite l0 (leftDim a)) (oL1 : Opposite l1 (leftDim Ws))
    (sR : Rt.shape = [r0, r1, rightDim b]) (oR0 : Opposite r0 (rightDim a)) (oR1 : Opposite r1 (rightDim Ws)) :
    ∃ N x, (∀ fuel, N ≤ fuel → contractOp fuel star a b Ws L Rt = some (.ok x)) ∧ x.shape = [] ∧
      x.rule = L.rule + (a.map BT.rule).sum + (Ws.map BT.rule).sum - (b.map BT.rule).sum + Rt.rule ∧
      Conserving x.shape x.rule x.blocks ∧
      entry x.shape x.blocks [] =
        ∑ l ∈ range (dimSize (leftDim a)), ∑ w ∈ range (dimSize (leftDim Ws)), ∑ l' ∈ range (dimSize (leftDim b)),
        ∑ r ∈ range (dimSize (rightDim a)), ∑ w' ∈ range (dimSize (rightDim Ws)), ∑ r' ∈ range (dimSize (rightDim b)),
          entry L.shape L.blocks [l, w, l'] *
            sandwich (a.map denseOf) (Ws.map denseOf) (b.map denseOf) l w l' r w' r' * entry Rt.shape Rt.blocks [r, w', r'] := by
  obtain ⟨N, x, z, h1, h2, h3, h4, h5⟩ := runs_contractOp (c := star) (star_zero R) a Ws b ha h L Rt hL hR l0 l1 r0 r1 sL oL0 oL1
    sR oR0 oR1
  obtain ⟨z', g1, g2, g3⟩ := MP.C69_operator _ _ _ (denseOf L) (denseOf Rt) (fit_dense h) (by simpa using ha)
    (by rw [denseOf_dims, sL, leftEnd_dense, leftEnd_dense, leftEnd_dense, ← dimSize_opposite oL0, ← dimSize_opposite oL1]; rfl)
    (by rw [denseOf_dims, sR, rightEnd_dense, rightEnd_dense, rightEnd_dense, ← dimSize_opposite oR0, ← dimSize_opposite oR1]; rfl)
  rw [h2] at g1
  cases g1
  refine ⟨N, x, h1, h3, h4, h5.1.1, ?_⟩
  rw [← h5.f (by rw [h3]; exact .nil), g3]
  simp only [leftEnd_dense, rightEnd_dense]
  rfl

/-- C75: the same without operator. -/
theorem C75_overlap (a b : List (BT G R)) (L Rt : BT G R) (h : BlockFit2 a b) (ha : a ≠ []) (hL : Sound L) (hR : Sound Rt)
    (l0 r0 : Dim G) (sL : L.shape = [l0, leftDim b]) (oL0 : Opposite l0 (leftDim a))
    (sR : Rt.shape = [r0, rightDim b]) (oR0 : Opposite r0 (rightDim a)) :
    ∃ N x, (∀ fuel, N ≤ fuel → contractNorm fuel star a b L Rt = some (.ok x)) ∧ x.shape = [] ∧
      x.rule = L.rule + (a.map BT.rule).sum - (b.map BT.rule).sum + Rt.rule ∧
      Conserving x.shape x.rule x.blocks ∧
      entry x.shape x.blocks [] =
        ∑ l ∈ range (dimSize (leftDim a)), ∑ l' ∈ range (dimSize (leftDim b)),
        ∑ r ∈ range (dimSize (rightDim a)), ∑ r' ∈ range (dimSize (rightDim b)),
          entry L.shape L.blocks [l, l'] * overlap (a.map denseOf) (b.map denseOf) l l' r r' * entry Rt.shape Rt.blocks [r, r'] := by
  obtain ⟨N, x, z, h1, h2, h3, h4, h5⟩ := runs_contractNorm (c := star) (star_zero R) a b ha h L Rt hL hR l0 r0 sL oL0 sR oR0
  have hp : phys (a.map denseOf) = phys (b.map denseOf) := by
    have := h.sites
    clear * - this
    simp only [phys, List.map_map, Function.comp_def, denseOf_dims, getD_dimSize]
    induction this with
    | nil => rfl
    | cons h _ ih => simp only [List.map_cons, ih, h]
  obtain ⟨z', g1, g2, g3⟩ := MP.C69_overlap _ _ (denseOf L) (denseOf Rt) (linked_dense (by omega) h.ket)
    (linked_dense (by omega) h.bra) hp (by simpa using ha)
    (by rw [denseOf_dims, sL, leftEnd_dense, leftEnd_dense, ← dimSize_opposite oL0]; rfl)
    (by rw [denseOf_dims, sR, rightEnd_dense, rightEnd_dense, ← dimSize_opposite oR0]; rfl)
  rw [h2] at g1
  cases g1
  refine ⟨N, x, h1, h3, h4, h5.1.1, ?_⟩
  rw [← h5.f (by rw [h3]; exact .nil), g3]
  simp only [leftEnd_dense, rightEnd_dense]
  rfl

/-- C76: for a block chain with two neighbouring sites replaced by any block tensor `θ` of their shape, the environments
of the other sites and the two-site Hamiltonian that DMRG computes make `hamil2site_times_state` the compression of the
whole operator: it finishes, the result has the shape of `θ` and its inner product with any two-site tensor `φ` is
`⟨Ψ(φ)| H |Ψ(θ)⟩`, the sum over all configurations of the chain, closed by the two edges. -/
theorem C76_effective (pre post preW postW : List (BT G R)) (A B W1 W2 θ φ L0 R0 : BT G R)
    (h : BlockFit (pre ++ A :: B :: post) (preW ++ W1 :: W2 :: postW) (pre ++ A :: B :: post)) (hl : preW.length = pre.length)
    (hL : Sound L0) (hR : Sound R0) (l0 l1 r0 r1 : Dim G)
    (sL : L0.shape = [l0, l1, leftDim (pre ++ A :: B :: post)])
    (oL0 : Opposite l0 (leftDim (pre ++ A :: B :: post))) (oL1 : Opposite l1 (leftDim (preW ++ W1 :: W2 :: postW)))
    (sR : R0.shape = [r0, r1, rightDim (pre ++ A :: B :: post)])
    (oR0 : Opposite r0 (rightDim (pre ++ A :: B :: post))) (oR1 : Opposite r1 (rightDim (preW ++ W1 :: W2 :: postW)))
    (hθ : Sound θ) (sθ : θ.shape = [A.shape.getD 0 [], A.shape.getD 1 [], B.shape.getD 1 [], B.shape.getD 2 []])
    (sφ : φ.shape = θ.shape) :
    ∃ N Le Re H2 θ', (∀ fuel, N ≤ fuel → leftEnvs fuel star pre preW L0 = some (.ok Le) ∧
        rightEnvs fuel star post postW R0 = some (.ok Re) ∧ twoSite fuel W1 W2 = some (.ok H2) ∧
        hamil2site fuel θ H2 Le Re = some (.ok θ')) ∧
      θ'.shape = θ.shape ∧ θ'.rule = θ.rule + (L0.rule + ((preW ++ W1 :: W2 :: postW).map BT.rule).sum + R0.rule) ∧
      Conserving θ'.shape θ'.rule θ'.blocks ∧
      ∑ o ∈ configs (θ.shape.map dimSize), entry θ'.shape θ'.blocks o * star (entry φ.shape φ.blocks o)
        = ∑ l ∈ range (dimSize (leftDim (pre ++ A :: B :: post))), ∑ w ∈ range (dimSize (leftDim (preW ++ W1 :: W2 :: postW))),
          ∑ l' ∈ range (dimSize (leftDim (pre ++ A :: B :: post))),
          ∑ r ∈ range (dimSize (rightDim (pre ++ A :: B :: post))), ∑ w' ∈ range (dimSize (rightDim (preW ++ W1 :: W2 :: postW))),
          ∑ r' ∈ range (dimSize (rightDim (pre ++ A :: B :: post))),
            entry L0.shape L0.blocks [l, w, l'] *
              pairSandwich (pre.map denseOf) (denseOf θ) (denseOf φ) (post.map denseOf) ((preW ++ W1 :: W2 :: postW).map denseOf)
                (phys ((pre ++ A :: B :: post).map denseOf)) l w l' r w' r'
              * entry R0.shape R0.blocks [r, w', r'] := by
  have assoc : ∀ (x y : List (BT G R)) (u v : BT G R), x ++ u :: v :: y = (x ++ [u]) ++ v :: y := by intro x y u v; simp
  have hl' : (preW ++ [W1]).length = (pre ++ [A]).length := by simp [hl]
  obtain ⟨e0, e1, ⟨N1, Le, le, p1, p2, p3, p4, p5⟩, oe0, oe1⟩ := runs_leftPart (c := star) (star_zero R) h hl (Rep.self hL) l0 l1 sL oL0 oL1
  obtain ⟨f0, f1, ⟨N2, Re, re, q1, q2, q3, q4, q5⟩, of0, of1⟩ := runs_rightPart (c := star) (star_zero R) (pre := pre ++ [A])
    (preW := preW ++ [W1]) (by rw [← assoc, ← assoc]; exact h) hl' (Rep.self hR) r0 r1 (by rw [← assoc]; exact sR)
    (by rw [← assoc]; exact oR0) (by rw [← assoc]; exact oR1)
  obtain ⟨_, k1, _⟩ := chained_append h.ket
  obtain ⟨_, w1, _⟩ := chained_append h.op
  obtain ⟨_, c1⟩ := forall₂_split hl h.cols
  obtain ⟨_, d1⟩ := forall₂_split hl.symm h.rows
  obtain ⟨c2, c3⟩ := List.forall₂_cons.mp c1
  obtain ⟨c4, _⟩ := List.forall₂_cons.mp c3
  obtain ⟨d2, d3⟩ := List.forall₂_cons.mp d1
  obtain ⟨d4, _⟩ := List.forall₂_cons.mp d3
  obtain ⟨SW1, kW1⟩ := w1.1 W1 (by simp)
  obtain ⟨SW2, kW2⟩ := w1.1 W2 (by simp)
  obtain ⟨N3, H2, h2, u1, u2, u3, u4, u5⟩ := runs_twoSite (Rep.self SW1) (Rep.self SW2) (shape4 kW1) (shape4 kW2) (chained_next w1)
  obtain ⟨N4, θ', z, v1, v2, v3, v4, v5⟩ := runs_hamil2site (Rep.self hθ) u5 p5 q5 p3 q3 sθ u3 oe0 oe1 c2 c4 of0 of1
  obtain ⟨Le', Re', H2', z', g1, g2, g3, g4, g5, g6⟩ := MP.C71_effective (pre.map denseOf) (post.map denseOf) (preW.map denseOf)
    (postW.map denseOf) (denseOf A) (denseOf B) (denseOf W1) (denseOf W2) (denseOf θ) (denseOf φ) (denseOf L0) (denseOf R0)
    (by simpa using fit_dense h) (by simpa using hl)
    (by
      have := leftEnd_dense (pre ++ A :: B :: post)
      have := leftEnd_dense (preW ++ W1 :: W2 :: postW)
      simp only [List.map_append, List.map_cons] at *
      simp only [*, denseOf_dims, List.map_cons, List.map_nil, dimSize_opposite oL0, dimSize_opposite oL1])
    (by
      have := rightEnd_dense (pre ++ A :: B :: post)
      have := rightEnd_dense (preW ++ W1 :: W2 :: postW)
      simp only [List.map_append, List.map_cons] at *
      simp only [*, denseOf_dims, List.map_cons, List.map_nil, dimSize_opposite oR0, dimSize_opposite oR1])
    (by simp only [denseOf_dims, sθ, getD_dimSize, List.map_cons, List.map_nil]) (by simp only [denseOf_dims, sφ])
  rw [p2] at g1; cases g1
  rw [q2] at g2; cases g2
  rw [u2] at g3; cases g3
  rw [v2] at g4; cases g4
  have eshape : θ'.shape = θ.shape := by rw [v3, sθ, d2, d4]
  refine ⟨max (max N1 N2) (max N3 N4), Le, Re, H2, θ', fun fuel hf => ⟨p1 fuel (by omega), q1 fuel (by omega), u1 fuel (by omega),
    v1 fuel (by omega)⟩, eshape, ?_, v5.1.1, ?_⟩
  · rw [v4, p4, q4, u4]
    simp only [List.map_append, List.map_cons, List.sum_append, List.sum_cons]
    abel
  · have hlhs : ∑ o ∈ configs (denseOf θ).dims, z.f o * star ((denseOf φ).f o)
        = ∑ o ∈ configs (θ.shape.map dimSize), entry θ'.shape θ'.blocks o * star (entry φ.shape φ.blocks o) := by
      refine sum_congr rfl fun o ho => ?_
      rw [v5.f (by rw [eshape]; exact MP.mem_configs.mp ho)]
      rfl
    rw [← hlhs, g6]
    simp only [denseOf_dims, sL, sR, List.map_cons, List.map_nil, List.getD_cons_zero, List.getD_cons_succ, List.map_append,
      dimSize_opposite oL0, dimSize_opposite oL1, dimSize_opposite oR0, dimSize_opposite oR1]
    simp only [← sL, ← sR]
    rfl

end QuantiT.BN
