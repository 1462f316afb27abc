import Verif.Props.BlockEdges
/-
Examples for C75 to C78, and where the default edges fail: a chain of two sites with a U(1) charge.
-/
namespace QuantiT.BN
open Spec BT Finset

/-- One coefficient per block. -/
def coef (n : Nat) (x : Int) : Blk Int := ⟨List.replicate n 1, fun _ => x⟩

/-- `|↑↓⟩ + 2 |↓↑⟩`; the bond holds the charge of the first site. -/
def exA : BT Int Int := ⟨[[(1, 0)], [(1, 1), (1, -1)], [(1, -1), (1, 1)]], 0, [([0, 0, 0], coef 3 1), ([0, 1, 1], coef 3 2)]⟩
@[inherit_doc exA]
def exB : BT Int Int := ⟨[[(1, 1), (1, -1)], [(1, 1), (1, -1)], [(1, 0)]], 0, [([0, 1, 0], coef 3 1), ([1, 0, 0], coef 3 1)]⟩

/-- The same state with the sections of the bond in the other order. -/
def exA' : BT Int Int := ⟨[[(1, 0)], [(1, 1), (1, -1)], [(1, 1), (1, -1)]], 0, [([0, 0, 1], coef 3 1), ([0, 1, 0], coef 3 2)]⟩
@[inherit_doc exA']
def exB' : BT Int Int := ⟨[[(1, -1), (1, 1)], [(1, 1), (1, -1)], [(1, 0)]], 0, [([0, 0, 0], coef 3 1), ([1, 1, 0], coef 3 1)]⟩

/-- `σz`. -/
def exZ : BT Int Int :=
  ⟨[[(1, 0)], [(1, 1), (1, -1)], [(1, 0)], [(1, -1), (1, 1)]], 0, [([0, 0, 0, 0], coef 4 1), ([0, 1, 0, 1], coef 4 (-1))]⟩

/-- The raising operator on the first site; the left end holds its charge. -/
def exUp : BT Int Int := ⟨[[(1, -2)], [(1, 1), (1, -1)], [(1, 0)], [(1, -1), (1, 1)]], 0, [([0, 0, 0, 1], coef 4 1)]⟩
/-- The lowering operator on the second site; the right end holds its charge. -/
def exDown : BT Int Int := ⟨[[(1, 0)], [(1, 1), (1, -1)], [(1, 2)], [(1, -1), (1, 1)]], 0, [([0, 1, 0, 0], coef 4 1)]⟩

theorem sound_of {R : Type} {t : BT Int R} (h1 : Sorted t.blocks)
    (h2 : ∀ kb ∈ t.blocks, ∃ secs, sections t.shape kb.1 = some secs ∧ charge secs = t.rule ∧ kb.2.dims = secs.map Prod.fst)
    (h3 : ∀ d ∈ t.shape, d.length < 2 ^ 63) : Sound t := ⟨⟨h1, fun k b h => h2 (k, b) h⟩, h3⟩

theorem exA_sound : Sound exA := sound_of (by unfold Sorted; decide) (by
  intro kb h; simp only [exA, List.mem_cons, List.not_mem_nil, or_false] at h
  rcases h with rfl | rfl <;> exact ⟨_, rfl, by decide, rfl⟩) (by decide)
theorem exB_sound : Sound exB := sound_of (by unfold Sorted; decide) (by
  intro kb h; simp only [exB, List.mem_cons, List.not_mem_nil, or_false] at h
  rcases h with rfl | rfl <;> exact ⟨_, rfl, by decide, rfl⟩) (by decide)
theorem exA'_sound : Sound exA' := sound_of (by unfold Sorted; decide) (by
  intro kb h; simp only [exA', List.mem_cons, List.not_mem_nil, or_false] at h
  rcases h with rfl | rfl <;> exact ⟨_, rfl, by decide, rfl⟩) (by decide)
theorem exB'_sound : Sound exB' := sound_of (by unfold Sorted; decide) (by
  intro kb h; simp only [exB', List.mem_cons, List.not_mem_nil, or_false] at h
  rcases h with rfl | rfl <;> exact ⟨_, rfl, by decide, rfl⟩) (by decide)
theorem exZ_sound : Sound exZ := sound_of (by unfold Sorted; decide) (by
  intro kb h; simp only [exZ, List.mem_cons, List.not_mem_nil, or_false] at h
  rcases h with rfl | rfl <;> exact ⟨_, rfl, by decide, rfl⟩) (by decide)
theorem exUp_sound : Sound exUp := sound_of (by unfold Sorted; decide) (by
  intro kb h; simp only [exUp, List.mem_cons, List.not_mem_nil, or_false] at h
  subst h; exact ⟨_, rfl, by decide, rfl⟩) (by decide)
theorem exDown_sound : Sound exDown := sound_of (by unfold Sorted; decide) (by
  intro kb h; simp only [exDown, List.mem_cons, List.not_mem_nil, or_false] at h
  subst h; exact ⟨_, rfl, by decide, rfl⟩) (by decide)

theorem chained_two {R : Type} {k : Nat} {A B : BT Int R} (hA : Sound A) (hB : Sound B) (kA : A.shape.length = k) (kB : B.shape.length = k)
    (h : Opposite (A.shape.getD 2 []) (B.shape.getD 0 [])) : Chained k [A, B] := by
  refine ⟨fun t ht => ?_, fun i t t' h1 h2 => ?_⟩
  · simp only [List.mem_cons, List.not_mem_nil, or_false] at ht
    rcases ht with rfl | rfl
    · exact ⟨hA, kA⟩
    · exact ⟨hB, kB⟩
  · rcases i with _ | _ | i
    · simp only [List.getElem?_cons_zero, Option.some.injEq, zero_add, List.getElem?_cons_succ] at h1 h2
      subst h1 h2; exact h
    · simp at h2
    · simp at h1

theorem exChain : Chained 3 [exA, exB] := chained_two exA_sound exB_sound rfl rfl
  (.cons ⟨rfl, by decide⟩ (.cons ⟨rfl, by decide⟩ .nil))
theorem exChain' : Chained 3 [exA', exB'] := chained_two exA'_sound exB'_sound rfl rfl
  (.cons ⟨rfl, by decide⟩ (.cons ⟨rfl, by decide⟩ .nil))

theorem exFitZ : BlockFit [exA, exB] [exZ, exZ] [exA, exB] :=
  ⟨exChain, chained_two exZ_sound exZ_sound rfl rfl (.cons ⟨rfl, by decide⟩ .nil), exChain,
    .cons (.cons ⟨rfl, by decide⟩ (.cons ⟨rfl, by decide⟩ .nil)) (.cons (.cons ⟨rfl, by decide⟩ (.cons ⟨rfl, by decide⟩ .nil)) .nil),
    .cons rfl (.cons rfl .nil)⟩

theorem exFitUp : BlockFit [exA, exB] [exUp, exDown] [exA, exB] :=
  ⟨exChain, chained_two exUp_sound exDown_sound rfl rfl (.cons ⟨rfl, by decide⟩ .nil), exChain,
    .cons (.cons ⟨rfl, by decide⟩ (.cons ⟨rfl, by decide⟩ .nil)) (.cons (.cons ⟨rfl, by decide⟩ (.cons ⟨rfl, by decide⟩ .nil)) .nil),
    .cons rfl (.cons rfl .nil)⟩

theorem exFit2 : BlockFit2 [exA, exB] [exA', exB'] := ⟨exChain, exChain', .cons rfl (.cons rfl .nil)⟩

/-- Edges of ones. -/
def exEdge : BT Int Int := ⟨[[(1, 0)], [(1, 0)], [(1, 0)]], 0, [([0, 0, 0], coef 3 1)]⟩
theorem exEdge_sound : Sound exEdge := sound_of (by unfold Sorted; decide) (by
  intro kb h; simp only [exEdge, List.mem_cons, List.not_mem_nil, or_false] at h
  subst h; exact ⟨_, rfl, by decide, rfl⟩) (by decide)
@[inherit_doc exEdge]
def exEdge2 : BT Int Int := ⟨[[(1, 0)], [(1, 0)]], 0, [([0, 0], coef 2 1)]⟩
theorem exEdge2_sound : Sound exEdge2 := sound_of (by unfold Sorted; decide) (by
  intro kb h; simp only [exEdge2, List.mem_cons, List.not_mem_nil, or_false] at h
  subst h; exact ⟨_, rfl, by decide, rfl⟩) (by decide)

/-- C75 on the example: `⟨ψ| σz σz |ψ⟩ = -5`. -/
example : ∃ N x, (∀ fuel, N ≤ fuel → contractOp fuel star [exA, exB] [exA, exB] [exZ, exZ] exEdge exEdge = some (.ok x)) ∧
    entry x.shape x.blocks [] = -5 := by
  obtain ⟨N, x, h1, _, _, _, h5⟩ := C75_operator _ _ _ exEdge exEdge exFitZ (by simp) exEdge_sound exEdge_sound [(1, 0)] [(1, 0)] [(1, 0)]
    [(1, 0)] rfl (.cons ⟨rfl, rfl⟩ .nil) (.cons ⟨rfl, rfl⟩ .nil) rfl (.cons ⟨rfl, rfl⟩ .nil) (.cons ⟨rfl, rfl⟩ .nil)
  exact ⟨N, x, h1, h5.trans (by decide +kernel)⟩

/-- C75 on the example: the overlap of the two ways to write the state is 5. -/
example : ∃ N x, (∀ fuel, N ≤ fuel → contractNorm fuel star [exA, exB] [exA', exB'] exEdge2 exEdge2 = some (.ok x)) ∧
    entry x.shape x.blocks [] = 5 := by
  obtain ⟨N, x, h1, _, _, _, h5⟩ := C75_overlap _ _ exEdge2 exEdge2 exFit2 (by simp) exEdge2_sound exEdge2_sound [(1, 0)] [(1, 0)]
    rfl (.cons ⟨rfl, rfl⟩ .nil) rfl (.cons ⟨rfl, rfl⟩ .nil)
  exact ⟨N, x, h1, h5.trans (by decide +kernel)⟩

/-- A third site, up; the right end holds the charge. -/
def exC : BT Int Int := ⟨[[(1, 0)], [(1, 1), (1, -1)], [(1, -1)]], 0, [([0, 0, 0], coef 3 1)]⟩
theorem exC_sound : Sound exC := sound_of (by unfold Sorted; decide) (by
  intro kb h; simp only [exC, List.mem_cons, List.not_mem_nil, or_false] at h
  subst h; exact ⟨_, rfl, by decide, rfl⟩) (by decide)
/-- The edge on its right. -/
def exEdgeC : BT Int Int := ⟨[[(1, 1)], [(1, 0)], [(1, -1)]], 0, [([0, 0, 0], coef 3 1)]⟩
theorem exEdgeC_sound : Sound exEdgeC := sound_of (by unfold Sorted; decide) (by
  intro kb h; simp only [exEdgeC, List.mem_cons, List.not_mem_nil, or_false] at h
  subst h; exact ⟨_, rfl, by decide, rfl⟩) (by decide)
/-- The product of the last two tensors. -/
def exTheta : BT Int Int :=
  ⟨[[(1, 1), (1, -1)], [(1, 1), (1, -1)], [(1, 1), (1, -1)], [(1, -1)]], 0, [([0, 1, 0, 0], coef 4 1), ([1, 0, 0, 0], coef 4 1)]⟩
theorem exTheta_sound : Sound exTheta := sound_of (by unfold Sorted; decide) (by
  intro kb h; simp only [exTheta, List.mem_cons, List.not_mem_nil, or_false] at h
  rcases h with rfl | rfl <;> exact ⟨_, rfl, by decide, rfl⟩) (by decide)

theorem chained_three {k : Nat} {A B C : BT Int Int} (h1 : Chained k [A, B]) (hC : Sound C) (kC : C.shape.length = k)
    (h : Opposite (B.shape.getD 2 []) (C.shape.getD 0 [])) : Chained k [A, B, C] := by
  refine ⟨fun t ht => ?_, fun i t t' g1 g2 => ?_⟩
  · simp only [List.mem_cons, List.not_mem_nil, or_false] at ht
    rcases ht with rfl | rfl | rfl
    · exact h1.1 _ (by simp)
    · exact h1.1 _ (by simp)
    · exact ⟨hC, kC⟩
  · rcases i with _ | _ | _ | i
    · exact h1.2 0 t t' (by simpa using g1) (by simpa using g2)
    · simp only [zero_add, List.getElem?_cons_succ, List.getElem?_cons_zero, Option.some.injEq, Nat.reduceAdd] at g1 g2
      subst g1 g2; exact h
    · simp at g2
    · simp at g1

theorem exFit3 : BlockFit ([exA] ++ exB :: exC :: []) ([exZ] ++ exZ :: exZ :: []) ([exA] ++ exB :: exC :: []) := by
  have hz : Opposite (exZ.shape.getD 2 []) (exZ.shape.getD 0 []) := .cons ⟨rfl, by decide⟩ .nil
  have hc : ∀ t : BT Int Int, t.shape.getD 1 [] = [(1, 1), (1, -1)] → Opposite (t.shape.getD 1 []) (exZ.shape.getD 3 []) := by
    intro t ht; rw [ht]; exact .cons ⟨rfl, by decide⟩ (.cons ⟨rfl, by decide⟩ .nil)
  have k3 := chained_three exChain exC_sound rfl (.cons ⟨rfl, by decide⟩ .nil)
  exact ⟨k3, chained_three (chained_two exZ_sound exZ_sound rfl rfl hz) exZ_sound rfl hz, k3,
    .cons (hc _ rfl) (.cons (hc _ rfl) (.cons (hc _ rfl) .nil)), .cons rfl (.cons rfl (.cons rfl .nil))⟩

/-- C76 on an example: the effective Hamiltonian of the last two of three sites, with `σz σz σz`; its expectation value in
the state itself is `-5`. -/
example : ∃ N Le Re H2 θ', (∀ fuel, N ≤ fuel → leftEnvs fuel star [exA] [exZ] exEdge = some (.ok Le) ∧
      rightEnvs fuel star [] [] exEdgeC = some (.ok Re) ∧ twoSite fuel exZ exZ = some (.ok H2) ∧
      hamil2site fuel exTheta H2 Le Re = some (.ok θ')) ∧
    ∑ o ∈ configs (exTheta.shape.map dimSize), entry θ'.shape θ'.blocks o * star (entry exTheta.shape exTheta.blocks o) = -5 := by
  obtain ⟨N, Le, Re, H2, θ', h1, _, _, _, h5⟩ := C76_effective [exA] [] [exZ] [] exB exC exZ exZ exTheta exTheta exEdge exEdgeC exFit3 rfl
    exEdge_sound exEdgeC_sound [(1, 0)] [(1, 0)] [(1, 1)] [(1, 0)] rfl (.cons ⟨rfl, rfl⟩ .nil) (.cons ⟨rfl, rfl⟩ .nil) rfl
    (.cons ⟨rfl, rfl⟩ .nil) (.cons ⟨rfl, rfl⟩ .nil) exTheta_sound rfl rfl
  exact ⟨N, Le, Re, H2, θ', h1, h5.trans (by decide +kernel)⟩

/-- C77 on the example: the squared norm is 5. -/
example : ∃ N z, (∀ fuel, N ≤ fuel → contractNormDefault fuel star [exA, exB] [exA, exB] = some (.ok z)) ∧
    entry z.shape z.blocks [] = 5 := by
  obtain ⟨N, z, h1, _, h3⟩ := C77_norm [exA, exB] exChain (by simp) (by unfold AllPositive; decide)
  exact ⟨N, z, h1, h3.trans (by decide +kernel)⟩

/-- C77 fails in general: two ways to write the same state, differing by the order of the sections of the bond, have
overlap 5, and `contract(a, b)` returns 0. -/
theorem C77_fails : ∃ a b : List (BT Int Int), BlockFit2 a b ∧ AllPositive a ∧ AllPositive b ∧ leftDim a = leftDim b ∧
    rightDim a = rightDim b ∧ dimSize (leftDim a) = 1 ∧ dimSize (rightDim a) = 1 ∧
    overlap (a.map denseOf) (b.map denseOf) 0 0 0 0 = 5 ∧
    ∃ N z, (∀ fuel, N ≤ fuel → contractNormDefault fuel star a b = some (.ok z)) ∧ entry z.shape z.blocks [] = 0 := by
  refine ⟨[exA, exB], [exA', exB'], exFit2, by unfold AllPositive; decide, by unfold AllPositive; decide, rfl, rfl, rfl, rfl, by decide +kernel, ?_⟩
  obtain ⟨N, z, h1, _, h3⟩ := C77_overlap _ _ exFit2 exA exA' exB exB' rfl rfl rfl rfl (by unfold AllPositive; decide) (by unfold AllPositive; decide) rfl rfl
  exact ⟨N, z, h1, h3.trans (by decide +kernel)⟩

/-- C77 depends on the order in which the compiler evaluates arguments: for an operator with charges on its ends,
`contract(a, b, obs)` is `⟨b| obs |a⟩ = 2` in one order and 0 in the other. -/
theorem C77_order_fails : ∃ a Ws b : List (BT Int Int), BlockFit a Ws b ∧
    sandwich (a.map denseOf) (Ws.map denseOf) (b.map denseOf) 0 0 0 0 0 0 = 2 ∧
    (∃ N z, (∀ fuel, N ≤ fuel → contractOpDefault false fuel star a b Ws = some (.ok z)) ∧ entry z.shape z.blocks [] = 2) ∧
    ∃ N z, (∀ fuel, N ≤ fuel → contractOpDefault true fuel star a b Ws = some (.ok z)) ∧ entry z.shape z.blocks [] = 0 := by
  refine ⟨_, _, _, exFitUp, by decide +kernel, ?_, ?_⟩
  · obtain ⟨N, z, h1, _, h3⟩ := C77_operator false _ _ _ exFitUp exA exA exB exB exUp exDown rfl rfl rfl rfl rfl rfl (by unfold AllPositive; decide)
      (by unfold AllPositive; decide) (by unfold AllPositive; decide) rfl rfl
    exact ⟨N, z, h1, h3.trans (by decide +kernel)⟩
  · obtain ⟨N, z, h1, _, h3⟩ := C77_operator true _ _ _ exFitUp exA exA exB exB exUp exDown rfl rfl rfl rfl rfl rfl (by unfold AllPositive; decide)
      (by unfold AllPositive; decide) (by unfold AllPositive; decide) rfl rfl
    exact ⟨N, z, h1, h3.trans (by decide +kernel)⟩

/-- C78 on the example: with `σz σz` the edges of `generate_env` are ones. -/
example : ∃ N L Rt, (∀ fuel, N ≤ fuel → envEdges false fuel [exZ, exZ] [exA, exB] = some (.ok (L, Rt))) ∧
    entry L.shape L.blocks [0, 0, 0] = (1 : Int) ∧ entry Rt.shape Rt.blocks [0, 0, 0] = (1 : Int) := by
  obtain ⟨N, L, Rt, h1, _, _, _, _, _, _, h8, h9⟩ := C78_edges (R := Int) false [exZ, exZ] [exA, exB] exA exB exZ exZ rfl rfl rfl rfl
    (by unfold AllPositive; decide) (by unfold AllPositive; decide) exChain exFitZ.op
  exact ⟨N, L, Rt, h1, (h8 0 0 0 (by decide) (by decide) (by decide)).trans (by decide),
    (h9 0 0 0 (by decide) (by decide) (by decide)).trans (by decide)⟩

/-- C78 fails in the other order of evaluation: for an operator with charges on its ends the edges are zero, so every
environment is. -/
theorem C78_order_fails : ∃ hamil state : List (BT Int Int), BlockFit state hamil state ∧
    ∃ N L Rt, (∀ fuel, N ≤ fuel → envEdges true fuel hamil state = some (.ok (L, Rt))) ∧
      (L.shape.map dimSize = [1, 1, 1] ∧ entry L.shape L.blocks [0, 0, 0] = 0) ∧
      (Rt.shape.map dimSize = [1, 1, 1] ∧ entry Rt.shape Rt.blocks [0, 0, 0] = 0) := by
  obtain ⟨N, L, Rt, h1, h2, h3, _, _, _, _, h8, h9⟩ := C78_edges (R := Int) true [exUp, exDown] [exA, exB] exA exB exUp exDown rfl rfl rfl rfl
    (by unfold AllPositive; decide) (by unfold AllPositive; decide) exChain exFitUp.op
  exact ⟨_, _, exFitUp, N, L, Rt, h1, ⟨by rw [h2]; decide, (h8 0 0 0 (by decide) (by decide) (by decide)).trans (by decide)⟩,
    ⟨by rw [h3]; decide, (h9 0 0 0 (by decide) (by decide) (by decide)).trans (by decide)⟩⟩

/-- C78 on an example: `-5` again, with the edges of `generate_env`, in either order of evaluation. -/
example (late : Bool) : ∃ N L0 R0 Le Re H2 θ', (∀ fuel, N ≤ fuel → envEdges late fuel [exZ, exZ, exZ] [exA, exB, exC] = some (.ok (L0, R0)) ∧
      leftEnvs fuel star [exA] [exZ] L0 = some (.ok Le) ∧
      rightEnvs fuel star [] [] R0 = some (.ok Re) ∧ twoSite fuel exZ exZ = some (.ok H2) ∧
      hamil2site fuel exTheta H2 Le Re = some (.ok θ')) ∧
    ∑ o ∈ configs (exTheta.shape.map dimSize), entry θ'.shape θ'.blocks o * star (entry exTheta.shape exTheta.blocks o) = -5 := by
  obtain ⟨N, L0, R0, Le, Re, H2, θ', h1, _, h5⟩ := C78_effective late [exA] [] [exZ] [] exB exC exZ exZ exTheta exTheta exFit3 rfl
    (by unfold AllPositive; decide) (by unfold AllPositive; decide) rfl rfl rfl rfl (.inr ⟨by decide, by decide⟩) exTheta_sound rfl rfl
  exact ⟨N, L0, R0, Le, Re, H2, θ', h1, h5.trans (by decide +kernel)⟩

end QuantiT.BN
