import Verif.Lemmas.BlockEdges
/-
C77, C78 — the edges made for block chains by `contract` and `generate_env`.
-/
set_option linter.unusedSectionVars false
namespace QuantiT.BN
open Spec BT Finset
variable {G R : Type} [AddCommGroup G] [DecidableEq G]

/-- No dimension of size zero. -/
def AllPositive (ts : List (BT G R)) : Prop := ∀ t ∈ ts, ∀ d ∈ t.shape, 0 < dimSize d

theorem andThen_ok {α β : Type} (a : α) (f : α → Option (Res β)) : andThen (some (.ok a)) f = f a := rfl

theorem eyeEdge_sound [Zero R] [One R] {k : Nat} {a b : List (BT G R)} (ka : Chained 3 a) (kb : Chained 3 b) (pa : AllPositive a) (pb : AllPositive b)
    {x y : BT G R} (hx : x ∈ a) (hy : y ∈ b) (hk : k = 0 ∨ k = 2) (hd : x.shape.getD k [] = y.shape.getD k []) :
    ∃ r : BT G R, eyeEdge x y (if k = 0 then [-1, 0, 0] else [0, 0, -1]) = .ok r ∧
      r.shape = [flipped (x.shape.getD k []), x.shape.getD k []] ∧
      r.rule = endRule y (if k = 0 then [-1, 0, 0] else [0, 0, -1]) - endRule x (if k = 0 then [-1, 0, 0] else [0, 0, -1]) ∧ Sound r ∧
      ∀ i j, i < dimSize (x.shape.getD k []) → j < dimSize (x.shape.getD k []) → entry r.shape r.blocks [i, j] =
        if i = j ∧ endRule x (if k = 0 then [-1, 0, 0] else [0, 0, -1]) = endRule y (if k = 0 then [-1, 0, 0] else [0, 0, -1])
          then 1 else 0 := by
  obtain ⟨Sx, lx⟩ := ka.1 x hx
  obtain ⟨Sy, ly⟩ := kb.1 y hy
  have p1 := picks3 lx (pa x hx)
  have p2 := picks3 ly (pb y hy)
  have k1 := kept3 lx
  have k2 := kept3 ly
  have q1 := populated_of_pos (pa x hx)
  have q2 := populated_of_pos (pb y hy)
  have hlen : ∀ k < 3, (x.shape.getD k []).length < 2 ^ 63 := by
    intro k hk
    rw [List.getD_eq_getElem _ _ (by omega)]
    exact Sx.2 _ (List.getElem_mem _)
  have fin : ∀ (r : BT G R) k, k < 3 → r.shape = [flipped (x.shape.getD k []), x.shape.getD k []] →
      Conserving r.shape r.rule r.blocks → Sound r := by
    intro r k hk h1 h2
    refine ⟨h2, ?_⟩
    rw [h1]
    intro d hd
    simp only [List.mem_cons, List.not_mem_nil, or_false] at hd
    rcases hd with rfl | rfl
    · simpa [flipped] using hlen k hk
    · exact hlen k hk
  rcases hk with rfl | rfl
  · simp only [if_true]
    obtain ⟨r, h1, h2, h3, h4, h5⟩ := eyeEdge_eq (R := R) x y _ _ p1.1 p2.1 q1 q2 k1.1 (by rw [k2.1, hd])
    exact ⟨r, h1, h2, h3, fin r 0 (by omega) h2 h4, h5⟩
  · simp only [if_neg (by decide : ¬ (2 = 0))]
    obtain ⟨r, h1, h2, h3, h4, h5⟩ := eyeEdge_eq (R := R) x y _ _ p1.2 p2.2 q1 q2 k1.2 (by rw [k2.2, hd])
    exact ⟨r, h1, h2, h3, fin r 2 (by omega) h2 h4, h5⟩

theorem opposite_of_flipped (d : Dim G) : Opposite (flipped d) d := by
  induction d with
  | nil => exact .nil
  | cons s d ih => exact .cons ⟨rfl, by simp⟩ ih

theorem sum_trace [CommSemiring R] (n m : Nat) (P Q : Prop) [Decidable P] [Decidable Q] (f : Nat → Nat → Nat → Nat → R)
    (L Rt : Nat → Nat → R) (hL : ∀ i j, i < n → j < n → L i j = if i = j ∧ P then 1 else 0)
    (hR : ∀ i j, i < m → j < m → Rt i j = if i = j ∧ Q then 1 else 0) :
    (∑ l ∈ range n, ∑ l' ∈ range n, ∑ r ∈ range m, ∑ r' ∈ range m, L l l' * f l l' r r' * Rt r r') =
      if P ∧ Q then ∑ l ∈ range n, ∑ r ∈ range m, f l l r r else 0 := by
  have h1 : (∑ l ∈ range n, ∑ l' ∈ range n, ∑ r ∈ range m, ∑ r' ∈ range m, L l l' * f l l' r r' * Rt r r') =
      ∑ l ∈ range n, ∑ l' ∈ range n, ∑ r ∈ range m, ∑ r' ∈ range m,
        (if l = l' ∧ P then 1 else 0) * f l l' r r' * (if r = r' ∧ Q then 1 else 0) := by
    refine sum_congr rfl fun l hl => sum_congr rfl fun l' hl' => sum_congr rfl fun r hr => sum_congr rfl fun r' hr' => ?_
    rw [hL _ _ (mem_range.mp hl) (mem_range.mp hl'), hR _ _ (mem_range.mp hr) (mem_range.mp hr')]
  rw [h1]
  by_cases hP : P <;> by_cases hQ : Q
  · simp only [hP, hQ, and_true, and_self, if_true]
    refine sum_congr rfl fun l hl => ?_
    rw [sum_eq_single l]
    · refine sum_congr rfl fun r hr => ?_
      rw [sum_eq_single r]
      · simp
      · intro r' _ h; simp [Ne.symm h]
      · intro h; exact absurd hr h
    · intro l' _ h; simp [Ne.symm h]
    · intro h; exact absurd hl h
  all_goals simp [hP, hQ]

theorem sum_trace_op [CommSemiring R] (n m k k' : Nat) (P Q : Prop) [Decidable P] [Decidable Q] (E E' : Nat → Prop) [DecidablePred E]
    [DecidablePred E'] (f : Nat → Nat → Nat → Nat → Nat → Nat → R) (L Rt : Nat → Nat → Nat → R)
    (hL : ∀ i w j, i < n → w < k → j < n → L i w j = (if i = j ∧ P then 1 else 0) * if E w then 1 else 0)
    (hR : ∀ i w j, i < m → w < k' → j < m → Rt i w j = (if i = j ∧ Q then 1 else 0) * if E' w then 1 else 0) :
    (∑ l ∈ range n, ∑ w ∈ range k, ∑ l' ∈ range n, ∑ r ∈ range m, ∑ w' ∈ range k', ∑ r' ∈ range m,
        L l w l' * f l w l' r w' r' * Rt r w' r') =
      if P ∧ Q then ∑ w ∈ (range k).filter E, ∑ w' ∈ (range k').filter E', ∑ l ∈ range n, ∑ r ∈ range m, f l w l r w' r else 0 := by
  have h1 : (∑ l ∈ range n, ∑ w ∈ range k, ∑ l' ∈ range n, ∑ r ∈ range m, ∑ w' ∈ range k', ∑ r' ∈ range m,
        L l w l' * f l w l' r w' r' * Rt r w' r') =
      ∑ l ∈ range n, ∑ w ∈ range k, ∑ l' ∈ range n, ∑ r ∈ range m, ∑ w' ∈ range k', ∑ r' ∈ range m,
        ((if l = l' ∧ P then 1 else 0) * if E w then 1 else 0) * f l w l' r w' r' *
          ((if r = r' ∧ Q then 1 else 0) * if E' w' then 1 else 0) := by
    refine sum_congr rfl fun l hl => sum_congr rfl fun w hw => sum_congr rfl fun l' hl' => sum_congr rfl fun r hr =>
      sum_congr rfl fun w' hw' => sum_congr rfl fun r' hr' => ?_
    rw [hL _ _ _ (mem_range.mp hl) (mem_range.mp hw) (mem_range.mp hl'), hR _ _ _ (mem_range.mp hr) (mem_range.mp hw') (mem_range.mp hr')]
  rw [h1]
  by_cases hP : P <;> by_cases hQ : Q
  · simp only [hP, hQ, and_true, and_self, if_true]
    have h2 : (∑ l ∈ range n, ∑ w ∈ range k, ∑ l' ∈ range n, ∑ r ∈ range m, ∑ w' ∈ range k', ∑ r' ∈ range m,
        ((if l = l' then 1 else 0) * if E w then 1 else 0) * f l w l' r w' r' * ((if r = r' then 1 else 0) * if E' w' then 1 else 0)) =
        ∑ l ∈ range n, ∑ w ∈ range k, ∑ r ∈ range m, ∑ w' ∈ range k', if E w then (if E' w' then f l w l r w' r else 0) else 0 := by
      refine sum_congr rfl fun l hl => sum_congr rfl fun w hw => ?_
      rw [sum_eq_single l]
      · refine sum_congr rfl fun r hr => sum_congr rfl fun w' hw' => ?_
        rw [sum_eq_single r]
        · by_cases e : E w <;> by_cases e' : E' w' <;> simp [e, e']
        · intro r' _ h; simp [Ne.symm h]
        · intro h; exact absurd hr h
      · intro l' _ h; simp [Ne.symm h]
      · intro h; exact absurd hl h
    rw [h2, sum_comm, sum_filter]
    refine sum_congr rfl fun w _ => ?_
    by_cases e : E w
    · simp only [e, if_true]
      rw [sum_filter]
      have h3 : (∑ l ∈ range n, ∑ r ∈ range m, ∑ w' ∈ range k', if E' w' then f l w l r w' r else 0) =
          ∑ w' ∈ range k', ∑ l ∈ range n, ∑ r ∈ range m, if E' w' then f l w l r w' r else 0 := by
        rw [sum_comm]
        rw [sum_comm (s := range k')]
        rw [sum_comm]
        exact sum_congr rfl fun l _ => sum_comm
      rw [h3]
      refine sum_congr rfl fun w' _ => ?_
      by_cases e' : E' w' <;> simp [e']
    · simp [e]
  all_goals simp [hP, hQ]

section
variable [CommSemiring R] [StarRing R]

/-- C77, what `contract(a, b)` of two block states does.  When the first elements of the inner dimensions of the end
tensors leave the same charge for the ends of `a` and of `b`, it is the overlap, traced over the ends; otherwise it is
zero whatever the states. -/
theorem C77_overlap (a b : List (BT G R)) (h : BlockFit2 a b) (x y x' y' : BT G R) (hx : a.head? = some x) (hy : b.head? = some y)
    (hx' : a.getLast? = some x') (hy' : b.getLast? = some y') (pa : AllPositive a) (pb : AllPositive b)
    (hl : leftDim a = leftDim b) (hr : rightDim a = rightDim b) :
    ∃ N z, (∀ fuel, N ≤ fuel → contractNormDefault fuel star a b = some (.ok z)) ∧ z.shape = [] ∧
      entry z.shape z.blocks [] =
        if endRule x [-1, 0, 0] = endRule y [-1, 0, 0] ∧ endRule x' [0, 0, -1] = endRule y' [0, 0, -1] then
          ∑ l ∈ range (dimSize (leftDim a)), ∑ r ∈ range (dimSize (rightDim a)),
            overlap (a.map denseOf) (b.map denseOf) l l r r
        else 0 := by
  have dl : leftDim a = x.shape.getD 0 [] := by simp [leftDim, hx]
  have dl' : leftDim b = y.shape.getD 0 [] := by simp [leftDim, hy]
  have dr : rightDim a = x'.shape.getD 2 [] := by simp [rightDim, hx']
  have dr' : rightDim b = y'.shape.getD 2 [] := by simp [rightDim, hy']
  obtain ⟨L, a1, a2, a3, a4, a5⟩ := eyeEdge_sound (R := R) (k := 0) h.ket h.bra pa pb (List.mem_of_mem_head? hx)
    (List.mem_of_mem_head? hy) (.inl rfl) (by rw [← dl, ← dl', hl])
  obtain ⟨Rt, b1, b2, b3, b4, b5⟩ := eyeEdge_sound (R := R) (k := 2) h.ket h.bra pa pb (List.mem_of_mem_getLast? hx')
    (List.mem_of_mem_getLast? hy') (.inr rfl) (by rw [← dr, ← dr', hr])
  simp only [if_true, if_neg (by decide : ¬ (2 = 0))] at a1 a5 b1 b5
  rw [← dl] at a2 a5
  rw [← dr] at b2 b5
  obtain ⟨N, z, c1, c2, c3, c4, c5⟩ := C75_overlap a b L Rt h (by rintro rfl; simp at hx) a4 b4 _ _ (by rw [a2, hl])
    (by rw [← hl]; exact opposite_of_flipped _) (by rw [b2, hr]) (by rw [← hr]; exact opposite_of_flipped _)
  refine ⟨N, z, fun fuel hf => ?_, c2, ?_⟩
  · simp only [contractNormDefault, frontOf, backOf, hx, hy, hx', hy', orUb, bind, Except.bind, a1, b1, andThen_ok]
    exact c1 fuel hf
  · rw [c5, ← hl, ← hr]
    exact sum_trace _ _ _ _ _ (fun i j => entry L.shape L.blocks [i, j]) (fun i j => entry Rt.shape Rt.blocks [i, j]) a5 b5

/-- C77: the squared norm of a block state, traced over its ends. -/
theorem C77_norm (a : List (BT G R)) (h : Chained 3 a) (ha : a ≠ []) (pa : AllPositive a) :
    ∃ N z, (∀ fuel, N ≤ fuel → contractNormDefault fuel star a a = some (.ok z)) ∧ z.shape = [] ∧
      entry z.shape z.blocks [] = ∑ l ∈ range (dimSize (leftDim a)), ∑ r ∈ range (dimSize (rightDim a)),
        overlap (a.map denseOf) (a.map denseOf) l l r r := by
  obtain ⟨x, hx⟩ : ∃ x, a.head? = some x := ⟨_, List.head?_eq_some_head ha⟩
  obtain ⟨x', hx'⟩ : ∃ x, a.getLast? = some x := ⟨_, List.getLast?_eq_some_getLast ha⟩
  obtain ⟨N, z, h1, h2, h3⟩ := C77_overlap a a ⟨h, h, by
    clear * -
    induction a with
    | nil => exact .nil
    | cons A a ih => exact .cons rfl ih⟩ x x x' x' hx hx hx' hx' pa pa rfl rfl
  exact ⟨N, z, h1, h2, by rw [h3, if_pos ⟨rfl, rfl⟩]⟩

/-- C77, what `contract(a, b, obs)` of block states and a block operator does: under the same condition on the ends of
`a` and `b`, the sum of `⟨b| obs |a⟩` over the ends, restricted to the elements of the ends of the operator whose charge
is that of the first one (its opposite if the compiler evaluates the arguments late). -/
theorem C77_operator (late : Bool) (a Ws b : List (BT G R)) (h : BlockFit a Ws b) (x y x' y' W W' : BT G R)
    (hx : a.head? = some x) (hy : b.head? = some y) (hW : Ws.head? = some W)
    (hx' : a.getLast? = some x') (hy' : b.getLast? = some y') (hW' : Ws.getLast? = some W')
    (pa : AllPositive a) (pb : AllPositive b) (pw : AllPositive Ws)
    (hl : leftDim a = leftDim b) (hr : rightDim a = rightDim b) :
    ∃ N z, (∀ fuel, N ≤ fuel → contractOpDefault late fuel star a b Ws = some (.ok z)) ∧ z.shape = [] ∧
      entry z.shape z.blocks [] =
        if endRule x [-1, 0, 0] = endRule y [-1, 0, 0] ∧ endRule x' [0, 0, -1] = endRule y' [0, 0, -1] then
          ∑ w ∈ (range (dimSize (leftDim Ws))).filter (EdgeOk late (leftDim Ws)),
          ∑ w' ∈ (range (dimSize (rightDim Ws))).filter (EdgeOk late (rightDim Ws)),
          ∑ l ∈ range (dimSize (leftDim a)), ∑ r ∈ range (dimSize (rightDim a)),
            sandwich (a.map denseOf) (Ws.map denseOf) (b.map denseOf) l w l r w' r
        else 0 := by
  have dl : leftDim a = x.shape.getD 0 [] := by simp [leftDim, hx]
  have dl' : leftDim b = y.shape.getD 0 [] := by simp [leftDim, hy]
  have dr : rightDim a = x'.shape.getD 2 [] := by simp [rightDim, hx']
  have dr' : rightDim b = y'.shape.getD 2 [] := by simp [rightDim, hy']
  have dw : leftDim Ws = W.shape.getD 0 [] := by simp [leftDim, hW]
  have dw' : rightDim Ws = W'.shape.getD 2 [] := by simp [rightDim, hW']
  obtain ⟨L, a1, a2, a3, a4, a5⟩ := eyeEdge_sound (R := R) (k := 0) h.ket h.bra pa pb (List.mem_of_mem_head? hx)
    (List.mem_of_mem_head? hy) (.inl rfl) (by rw [← dl, ← dl', hl])
  obtain ⟨Rt, b1, b2, b3, b4, b5⟩ := eyeEdge_sound (R := R) (k := 2) h.ket h.bra pa pb (List.mem_of_mem_getLast? hx')
    (List.mem_of_mem_getLast? hy') (.inr rfl) (by rw [← dr, ← dr', hr])
  simp only [if_true, if_neg (by decide : ¬ (2 = 0))] at a1 a5 b1 b5
  rw [← dl] at a2 a5
  rw [← dr] at b2 b5
  have mW := List.mem_of_mem_head? hW
  have mW' := List.mem_of_mem_getLast? hW'
  obtain ⟨SW, lW⟩ := h.op.1 W mW
  obtain ⟨SW', lW'⟩ := h.op.1 W' mW'
  obtain ⟨N1, sl, ol, c1, c2, c3, c4, c5, c6⟩ := onesEdge_eq (R := R) late W 0 (by omega) (pw W mW)
  obtain ⟨N2, sr, or', d1, d2, d3, d4, d5, d6⟩ := onesEdge_eq (R := R) late W' 2 (by omega) (pw W' mW')
  rw [← dw] at c3 c6
  rw [← dw'] at d3 d6
  have sndl : Sound ol := ⟨c5, by
    rw [c3, dw]
    intro d hd
    simp only [List.mem_cons, List.not_mem_nil, or_false] at hd
    subst hd
    rw [List.getD_eq_getElem _ _ (by omega)]
    simpa [flipped] using SW.2 _ (List.getElem_mem (by omega))⟩
  have sndr : Sound or' := ⟨d5, by
    rw [d3, dw']
    intro d hd
    simp only [List.mem_cons, List.not_mem_nil, or_false] at hd
    subst hd
    rw [List.getD_eq_getElem _ _ (by omega)]
    simpa [flipped] using SW'.2 _ (List.getElem_mem (by omega))⟩
  obtain ⟨N3, L2, L3, e1, e2, e3, e4, e5, e6⟩ := outer3 a4 sndl a2 c3
  obtain ⟨N4, R2, R3, f1, f2, f3, f4, f5, f6⟩ := outer3 b4 sndr b2 d3
  obtain ⟨N, z, g1, g2, g3, g4, g5⟩ := C75_operator a Ws b L3 R3 h (by rintro rfl; simp at hx) e5 f5 _ _ _ _ (by rw [e3, hl])
    (by rw [← hl]; exact opposite_of_flipped _) (opposite_of_flipped _) (by rw [f3, hr]) (by rw [← hr]; exact opposite_of_flipped _)
    (opposite_of_flipped _)
  refine ⟨max N (max (max N1 N2) (max N3 N4)), z, fun fuel hf => ?_, g2, ?_⟩
  · simp only [contractOpDefault, frontOf, backOf, hx, hy, hx', hy', hW, hW', orUb, bind, Except.bind, a1, b1, andThen_ok, c1, d1,
      c2 fuel (by omega), d2 fuel (by omega), e1 fuel (by omega), e2, f1 fuel (by omega), f2]
    exact g1 fuel (by omega)
  · rw [g5, ← hl, ← hr]
    have hL : ∀ l w l', l < dimSize (leftDim a) → w < dimSize (leftDim Ws) → l' < dimSize (leftDim a) →
        entry L3.shape L3.blocks [l, w, l'] = entry L.shape L.blocks [l, l'] * (if EdgeOk late (leftDim Ws) w then 1 else 0) := by
      intro l w l' h1 h2 h3
      rw [e6 l w l' (by rw [dimSize_flipped]; exact h1) (by rw [dimSize_flipped]; exact h2) h3, c6 w h2]
    have hR : ∀ l w l', l < dimSize (rightDim a) → w < dimSize (rightDim Ws) → l' < dimSize (rightDim a) →
        entry R3.shape R3.blocks [l, w, l'] = entry Rt.shape Rt.blocks [l, l'] * (if EdgeOk late (rightDim Ws) w then 1 else 0) := by
      intro l w l' h1 h2 h3
      rw [f6 l w l' (by rw [dimSize_flipped]; exact h1) (by rw [dimSize_flipped]; exact h2) h3, d6 w h2]
    refine sum_trace_op _ _ _ _ _ _ _ _ (fun l w l' r w' r' => sandwich (a.map denseOf) (Ws.map denseOf) (b.map denseOf) l w l' r w' r')
      (fun i w j => entry L3.shape L3.blocks [i, w, j]) (fun i w j => entry R3.shape R3.blocks [i, w, j]) ?_ ?_
    · intro i w j h1 h2 h3
      rw [hL i w j h1 h2 h3, a5 i j h1 h3]
    · intro i w j h1 h2 h3
      rw [hR i w j h1 h2 h3, b5 i j h1 h3]

end

/-- C78: the edges `generate_env` makes for a block Hamiltonian and a block state: ones wherever the charges allow it, with
dimensions that fit the ends and the rule that the first element of the operator's end asks for (its opposite if the
compiler evaluates the arguments late). -/
theorem C78_edges [Zero R] [One R] (late : Bool) (hamil state : List (BT G R)) (x x' W W' : BT G R)
    (hx : state.head? = some x) (hW : hamil.head? = some W) (hx' : state.getLast? = some x') (hW' : hamil.getLast? = some W')
    (ps : AllPositive state) (ph : AllPositive hamil) (ks : Chained 3 state) (kh : Chained 4 hamil) :
    ∃ N L Rt, (∀ fuel, N ≤ fuel → envEdges late fuel hamil state = some (.ok (L, Rt))) ∧
      L.shape = [flipped (leftDim state), flipped (leftDim hamil), leftDim state] ∧
      Rt.shape = [flipped (rightDim state), flipped (rightDim hamil), rightDim state] ∧ Sound L ∧ Sound Rt ∧
      L.rule = (if late then chargeAt (leftDim hamil) 0 else -chargeAt (leftDim hamil) 0) ∧
      Rt.rule = (if late then chargeAt (rightDim hamil) 0 else -chargeAt (rightDim hamil) 0) ∧
      (∀ l w l', l < dimSize (leftDim state) → w < dimSize (leftDim hamil) → l' < dimSize (leftDim state) →
        entry L.shape L.blocks [l, w, l'] =
          if chargeAt (leftDim state) l' - chargeAt (leftDim state) l - chargeAt (leftDim hamil) w
            = if late then chargeAt (leftDim hamil) 0 else -chargeAt (leftDim hamil) 0 then 1 else 0) ∧
      (∀ r w r', r < dimSize (rightDim state) → w < dimSize (rightDim hamil) → r' < dimSize (rightDim state) →
        entry Rt.shape Rt.blocks [r, w, r'] =
          if chargeAt (rightDim state) r' - chargeAt (rightDim state) r - chargeAt (rightDim hamil) w
            = if late then chargeAt (rightDim hamil) 0 else -chargeAt (rightDim hamil) 0 then 1 else 0) := by
  have dl : leftDim state = x.shape.getD 0 [] := by simp [leftDim, hx]
  have dr : rightDim state = x'.shape.getD 2 [] := by simp [rightDim, hx']
  have dw : leftDim hamil = W.shape.getD 0 [] := by simp [leftDim, hW]
  have dw' : rightDim hamil = W'.shape.getD 2 [] := by simp [rightDim, hW']
  have mx := List.mem_of_mem_head? hx
  have mx' := List.mem_of_mem_getLast? hx'
  have mW := List.mem_of_mem_head? hW
  have mW' := List.mem_of_mem_getLast? hW'
  have l1 := (ks.1 x mx).2
  have l2 := (ks.1 x' mx').2
  have l3 := (kh.1 W mW).2
  have l4 := (kh.1 W' mW').2
  obtain ⟨N, sx, sw, s, L, a1, a2, a3, a4, a5, a6, a7, a8⟩ := envEdge_eq (R := R) late x W 0 (by omega) (by omega) (ps x mx) (ph W mW)
  obtain ⟨N', sx', sw', s', Rt, b1, b2, b3, b4, b5, b6, b7, b8⟩ := envEdge_eq (R := R) late x' W' 2 (by omega) (by omega) (ps x' mx')
    (ph W' mW')
  have snd : ∀ (r y V : BT G R) (k : Nat), Conserving r.shape r.rule r.blocks → Sound y → Sound V → k < y.shape.length → k < V.shape.length →
      r.shape = [flipped (y.shape.getD k []), flipped (V.shape.getD k []), y.shape.getD k []] → Sound r := by
    intro r y V k hr hy hV h1 h2 hs
    refine ⟨hr, ?_⟩
    have g1 := hy.2 _ (List.getElem_mem h1)
    have g2 := hV.2 _ (List.getElem_mem h2)
    rw [← List.getD_eq_getElem _ [] h1] at g1
    rw [← List.getD_eq_getElem _ [] h2] at g2
    rw [hs]
    intro d hd
    simp only [List.mem_cons, List.not_mem_nil, or_false] at hd
    rcases hd with rfl | rfl | rfl
    · simpa [flipped] using g1
    · simpa [flipped] using g2
    · exact g1
  have s1 := snd L x W 0 a7 (ks.1 x mx).1 (kh.1 W mW).1 (by omega) (by omega) a5
  have s2 := snd Rt x' W' 2 b7 (ks.1 x' mx').1 (kh.1 W' mW').1 (by omega) (by omega) b5
  rw [← dl, ← dw] at a5 a8
  rw [← dw] at a6
  rw [← dr, ← dw'] at b5 b8
  rw [← dw'] at b6
  refine ⟨max N N', L, Rt, fun fuel hf => ?_, a5, b5, s1, s2, a6, b6, a8, b8⟩
  simp only [envEdges, envEdgeShapes, frontOf, backOf, hx, hx', hW, hW', orUb, bind, Except.bind, a1, a2, a3, b1, b2, b3, andThen_ok,
    a4 fuel (by omega), b4 fuel (by omega)]

/-- C78, with C76: with the edges `generate_env` makes, for a chain and an operator with one element at each end — and ends
of the operator without charge, or the early order of evaluation — the effective two-site Hamiltonian of DMRG is the
compression of the whole operator: `⟨φ, H_eff θ⟩ = ⟨Ψ(φ)| H |Ψ(θ)⟩`. -/
theorem C78_effective [CommSemiring R] [StarRing R] (late : Bool) (pre post preW postW : List (BT G R)) (A B W1 W2 θ φ : BT G R)
    (h : BlockFit (pre ++ A :: B :: post) (preW ++ W1 :: W2 :: postW) (pre ++ A :: B :: post)) (hl : preW.length = pre.length)
    (ps : AllPositive (pre ++ A :: B :: post)) (ph : AllPositive (preW ++ W1 :: W2 :: postW))
    (n1 : dimSize (leftDim (pre ++ A :: B :: post)) = 1) (n2 : dimSize (rightDim (pre ++ A :: B :: post)) = 1)
    (n3 : dimSize (leftDim (preW ++ W1 :: W2 :: postW)) = 1) (n4 : dimSize (rightDim (preW ++ W1 :: W2 :: postW)) = 1)
    (hn : late = false ∨ chargeAt (leftDim (preW ++ W1 :: W2 :: postW)) 0 = 0 ∧ chargeAt (rightDim (preW ++ W1 :: W2 :: postW)) 0 = 0)
    (hθ : Sound θ) (sθ : θ.shape = [A.shape.getD 0 [], A.shape.getD 1 [], B.shape.getD 1 [], B.shape.getD 2 []])
    (sφ : φ.shape = θ.shape) :
    ∃ N L0 R0 Le Re H2 θ', (∀ fuel, N ≤ fuel →
        envEdges late fuel (preW ++ W1 :: W2 :: postW) (pre ++ A :: B :: post) = some (.ok (L0, R0)) ∧
        leftEnvs fuel star pre preW L0 = some (.ok Le) ∧
        rightEnvs fuel star post postW R0 = some (.ok Re) ∧ twoSite fuel W1 W2 = some (.ok H2) ∧
        hamil2site fuel θ H2 Le Re = some (.ok θ')) ∧
      θ'.shape = θ.shape ∧
      ∑ o ∈ configs (θ.shape.map dimSize), entry θ'.shape θ'.blocks o * star (entry φ.shape φ.blocks o)
        = pairSandwich (pre.map denseOf) (denseOf θ) (denseOf φ) (post.map denseOf) ((preW ++ W1 :: W2 :: postW).map denseOf)
            (phys ((pre ++ A :: B :: post).map denseOf)) 0 0 0 0 0 0 := by
  obtain ⟨x, hx⟩ : ∃ x, (pre ++ A :: B :: post).head? = some x := ⟨_, List.head?_eq_some_head (by simp)⟩
  obtain ⟨x', hx'⟩ : ∃ x, (pre ++ A :: B :: post).getLast? = some x := ⟨_, List.getLast?_eq_some_getLast (by simp)⟩
  obtain ⟨W, hW⟩ : ∃ x, (preW ++ W1 :: W2 :: postW).head? = some x := ⟨_, List.head?_eq_some_head (by simp)⟩
  obtain ⟨W', hW'⟩ : ∃ x, (preW ++ W1 :: W2 :: postW).getLast? = some x := ⟨_, List.getLast?_eq_some_getLast (by simp)⟩
  obtain ⟨N1, L0, R0, e1, e2, e3, e4, e5, e6, e7, e8, e9⟩ := C78_edges (R := R) late _ _ x x' W W' hx hW hx' hW' ps ph h.ket h.op
  obtain ⟨N2, Le, Re, H2, θ', f1, f2, f3, f4, f5⟩ := C76_effective pre post preW postW A B W1 W2 θ φ L0 R0 h hl e4 e5 _ _ _ _ e2
    (opposite_of_flipped _) (opposite_of_flipped _) e3 (opposite_of_flipped _) (opposite_of_flipped _) hθ sθ sφ
  refine ⟨max N1 N2, L0, R0, Le, Re, H2, θ', fun fuel hf => ⟨e1 fuel (by omega), f1 fuel (by omega)⟩, f2, ?_⟩
  have c1 := e8 0 0 0 (by omega) (by omega) (by omega)
  have c2 := e9 0 0 0 (by omega) (by omega) (by omega)
  rw [if_pos (by rcases hn with rfl | ⟨q1, q2⟩ <;> simp [*])] at c1 c2
  rw [f5, n1, n2, n3, n4]
  simp only [range_one, sum_singleton, c1, c2, one_mul, mul_one]

end QuantiT.BN
