import Verif.Lemmas.Rep
/-
The contractions of block chains run as those of the dense chains of their entries.
-/
set_option linter.unusedSectionVars false
namespace QuantiT.BN
open Spec BT Finset
variable {G R : Type} [AddCommGroup G] [DecidableEq G] [Semiring R]

/-- With enough fuel `f` returns a block tensor with the given shape and rule whose dense tensor is what `y` returns. -/
def Runs (f : Nat → Option (Res (BT G R))) (y : Res (Blk R)) (sh : Shape G) (q : G) : Prop :=
  ∃ N t z, (∀ fuel, N ≤ fuel → f fuel = some (.ok t)) ∧ y = .ok z ∧ t.shape = sh ∧ t.rule = q ∧ Rep t z

theorem runs_bind {f : Nat → Option (Res (BT G R))} {y : Res (Blk R)} {sh sh' : Shape G} {q q' : G}
    {g : Nat → BT G R → Option (Res (BT G R))} {k : Blk R → Res (Blk R)} (h : Runs f y sh q)
    (hk : ∀ t z, t.shape = sh → t.rule = q → Rep t z → Runs (fun n => g n t) (k z) sh' q') :
    Runs (fun n => andThen (f n) (g n)) (y >>= k) sh' q' := by
  obtain ⟨N, t, z, h1, rfl, h3, h4, h5⟩ := h
  obtain ⟨M, t', z', g1, g2, g3⟩ := hk t z h3 h4 h5
  refine ⟨max N M, t', z', fun fuel hf => ?_, g2, g3⟩
  simp only [h1 fuel (by omega), andThen]
  exact g1 fuel (by omega)

theorem runs_pure {t : BT G R} {z : Blk R} (h : Rep t z) : Runs (fun _ => some (.ok t)) (.ok z) t.shape t.rule :=
  ⟨0, t, z, fun _ _ => rfl, rfl, rfl, rfl, h⟩

theorem runs_tdot {a b : BT G R} {x y : Blk R} (ha : Rep a x) (hb : Rep b y)
    (da db : List Nat) (hda : da.Nodup) (hdb : db.Nodup) {sh sh' sa sb ca cb : Shape G} (ea : a.shape = sh) (eb : b.shape = sh')
    (hca : gather da sh = some ca) (hcb : gather db sh' = some cb)
    (hsa : gather (others da sh.length) sh = some sa) (hsb : gather (others db sh'.length) sh' = some sb)
    (hc : Contractible ca cb) (na : sh ≠ []) (nb : sh' ≠ []) :
    Runs (fun n => tensordot n a b da db) (MP.tdot x y da db) (sa ++ sb) (a.rule + b.rule) := by
  subst ea; subst eb
  exact rep_tdot ha hb hda hdb hca hcb hsa hsb hc na nb

theorem opposite_flipped (d : Dim G) : Opposite d (flipped d) := by
  induction d with
  | nil => exact .nil
  | cons s d ih => exact .cons ⟨rfl, by simp⟩ ih

theorem flipped_opposite (d : Dim G) : Opposite (flipped d) d := by
  induction d with
  | nil => exact .nil
  | cons s d ih => exact .cons ⟨rfl, by simp⟩ ih

theorem opposite_eq {d d' : Dim G} (h : Opposite d d') : d' = flipped d := by
  induction h with
  | nil => rfl
  | cons h _ ih =>
    rename_i s s' _ _ _
    obtain ⟨n, x⟩ := s
    obtain ⟨n', x'⟩ := s'
    obtain ⟨h1, h2⟩ := h
    simp only at h1 h2
    subst h1
    rw [eq_neg_of_add_eq_zero_right h2, ih]
    rfl

theorem flipped_flipped (d : Dim G) : flipped (flipped d) = d := by
  simp [flipped, Function.comp_def]

theorem contr1 {d d' : Dim G} (h : Opposite d d') : Contractible [d] [d'] := .cons h .nil
theorem contr2 {d d' e e' : Dim G} (h : Opposite d d') (h2 : Opposite e e') : Contractible [d, e] [d', e'] :=
  .cons h (.cons h2 .nil)
theorem contr3 {d d' e e' f f' : Dim G} (h : Opposite d d') (h2 : Opposite e e') (h3 : Opposite f f') :
    Contractible [d, e, f] [d', e', f'] := .cons h (.cons h2 (.cons h3 .nil))

theorem runs_envLeft {c : R → R} (h0 : c 0 = 0) {W A B L : BT G R} {w x y l : Blk R} (hW : Rep W w) (hA : Rep A x)
    (hB : Rep B y) (hL : Rep L l) {l0 l1 a0 a1 a2 w0 w1 w2 w3 b0 b2 : Dim G}
    (sL : L.shape = [l0, l1, b0]) (sA : A.shape = [a0, a1, a2]) (sW : W.shape = [w0, w1, w2, w3]) (sB : B.shape = [b0, w1, b2])
    (o0 : Opposite l0 a0) (o1 : Opposite l1 w0) (o2 : Opposite a1 w3) :
    Runs (fun n => envLeft n c W A B L) (MP.envLeft c w x y l) [a2, w2, flipped b2] (L.rule + A.rule + W.rule + -B.rule) := by
  refine runs_bind (q := L.rule + A.rule) (sh := [l1, b0, a1, a2]) ?_ fun t z e1 e2 ht => ?_
  · exact runs_tdot hL hA [0] [0] (by decide) (by decide) sL sA rfl rfl rfl rfl (contr1 o0) (by simp) (by simp)
  refine runs_bind (q := L.rule + A.rule + W.rule) (sh := [b0, a2, w1, w2]) ?_ fun t' z' e1' e2' ht' => ?_
  · rw [← e2]
    exact runs_tdot ht hW [0, 2] [0, 3] (by decide) (by decide) e1 sW rfl rfl rfl rfl (contr2 o1 o2) (by simp) (by simp)
  rw [← e2']
  have sC : (BT.conj c B).shape = [flipped b0, flipped w1, flipped b2] := by rw [conj_shape, sB]; rfl
  exact runs_tdot ht' (rep_conj h0 hB) [0, 2] [0, 1] (by decide) (by decide) e1' sC rfl rfl rfl rfl
    (contr2 (opposite_flipped _) (opposite_flipped _)) (by simp) (by simp)

theorem runs_normStep {c : R → R} (h0 : c 0 = 0) {A B L : BT G R} {x y l : Blk R} (hA : Rep A x)
    (hB : Rep B y) (hL : Rep L l) {l0 a0 a1 a2 b0 b2 : Dim G}
    (sL : L.shape = [l0, b0]) (sA : A.shape = [a0, a1, a2]) (sB : B.shape = [b0, a1, b2]) (o0 : Opposite l0 a0) :
    Runs (fun n => andThen (tensordot n L A [0] [0]) fun t => tensordot n t (BT.conj c B) [0, 1] [0, 1])
      (do let t ← MP.tdot l x [0] [0]; MP.tdot t (MP.conjBlk c y) [0, 1] [0, 1]) [a2, flipped b2] (L.rule + A.rule + -B.rule) := by
  refine runs_bind (q := L.rule + A.rule) (sh := [b0, a1, a2]) ?_ fun t z e1 e2 ht => ?_
  · exact runs_tdot hL hA [0] [0] (by decide) (by decide) sL sA rfl rfl rfl rfl (contr1 o0) (by simp) (by simp)
  rw [← e2]
  have sC : (BT.conj c B).shape = [flipped b0, flipped a1, flipped b2] := by rw [conj_shape, sB]; rfl
  exact runs_tdot ht (rep_conj h0 hB) [0, 1] [0, 1] (by decide) (by decide) e1 sC rfl rfl rfl rfl
    (contr2 (opposite_flipped _) (opposite_flipped _)) (by simp) (by simp)

theorem shape3 {s : Shape G} (h : s.length = 3) : s = [s.getD 0 [], s.getD 1 [], s.getD 2 []] := by
  rcases s with _ | ⟨a, _ | ⟨b, _ | ⟨c, _ | ⟨d, s⟩⟩⟩⟩ <;> simp at h ⊢

theorem shape4 {s : Shape G} (h : s.length = 4) : s = [s.getD 0 [], s.getD 1 [], s.getD 2 [], s.getD 3 []] := by
  rcases s with _ | ⟨a, _ | ⟨b, _ | ⟨c, _ | ⟨d, _ | ⟨e, s⟩⟩⟩⟩⟩ <;> simp at h ⊢

theorem chained_tail {k : Nat} {A : BT G R} {a : List (BT G R)} (h : Chained k (A :: a)) : Chained k a :=
  ⟨fun t ht => h.1 t (by simp [ht]), fun i t t' h1 h2 => h.2 (i + 1) t t' (by simpa using h1) (by simpa using h2)⟩

theorem chained_next {k : Nat} {A B : BT G R} {a : List (BT G R)} (h : Chained k (A :: B :: a)) :
    Opposite (A.shape.getD 2 []) (B.shape.getD 0 []) := h.2 0 A B rfl rfl

theorem blockFit_tail {A W B : BT G R} {a Ws b : List (BT G R)} (h : BlockFit (A :: a) (W :: Ws) (B :: b)) :
    BlockFit a Ws b :=
  ⟨chained_tail h.ket, chained_tail h.op, chained_tail h.bra, (List.forall₂_cons.mp h.cols).2, (List.forall₂_cons.mp h.rows).2⟩

theorem rightDim_cons (A B : BT G R) (a : List (BT G R)) : rightDim (A :: B :: a) = rightDim (B :: a) := by
  simp [rightDim]

theorem runs_contractLoop {c : R → R} (h0 : c 0 = 0) : ∀ (a Ws b : List (BT G R)), a ≠ [] → BlockFit a Ws b →
    ∀ (L : BT G R) (l : Blk R) (l0 l1 : Dim G), Rep L l → L.shape = [l0, l1, leftDim b] → Opposite l0 (leftDim a) →
      Opposite l1 (leftDim Ws) →
      Runs (fun n => contractLoop n c a b Ws L) (MP.contractLoop c (a.map denseOf) (b.map denseOf) (Ws.map denseOf) l)
        [rightDim a, rightDim Ws, flipped (rightDim b)]
        (L.rule + (a.map BT.rule).sum + (Ws.map BT.rule).sum - (b.map BT.rule).sum)
  | [], _, _, h, _ => absurd rfl h
  | A :: a, Ws, b, _, hf => by
    intro L l l0 l1 hL sL o0 o1
    rcases Ws with _ | ⟨W, Ws⟩
    · cases hf.cols
    rcases b with _ | ⟨B, b⟩
    · cases hf.rows
    obtain ⟨SA, kA⟩ := hf.ket.1 A (by simp)
    obtain ⟨SW, kW⟩ := hf.op.1 W (by simp)
    obtain ⟨SB, kB⟩ := hf.bra.1 B (by simp)
    have hcol := (List.forall₂_cons.mp hf.cols).1
    have hrow := (List.forall₂_cons.mp hf.rows).1
    have step := runs_envLeft h0 (Rep.self SW) (Rep.self SA) (Rep.self SB) hL sL (shape3 kA) (shape4 kW)
      (by rw [hrow]; exact shape3 kB) o0 o1 hcol
    simp only [List.map_cons, List.sum_cons]
    rcases a with _ | ⟨A', a⟩
    · have h1 := (List.forall₂_cons.mp hf.cols).2
      cases h1
      have h2 := (List.forall₂_cons.mp hf.rows).2
      cases h2
      refine runs_bind step fun t z e1 e2 ht => ?_
      have := runs_pure ht
      rw [e1, e2] at this
      simp only [List.map_nil, List.sum_nil, add_zero]
      have e : L.rule + A.rule + W.rule - B.rule = L.rule + A.rule + W.rule + -B.rule := by abel
      rw [e]
      exact this
    · have h1 := (List.forall₂_cons.mp hf.cols).2
      rcases Ws with _ | ⟨W', Ws⟩
      · cases h1
      have h2 := (List.forall₂_cons.mp hf.rows).2
      rcases b with _ | ⟨B', b⟩
      · cases h2
      rw [rightDim_cons, rightDim_cons, rightDim_cons]
      refine runs_bind step fun t z e1 e2 ht => ?_
      have ih := runs_contractLoop h0 (A' :: a) (W' :: Ws) (B' :: b) (by simp) (blockFit_tail hf) t z _ _ ht
        (by rw [e1]; simp only [leftDim, List.head?_cons]; rw [opposite_eq (chained_next hf.bra)])
        (by simpa [leftDim] using (chained_next hf.ket)) (by simpa [leftDim] using (chained_next hf.op))
      rw [e2] at ih
      have e : L.rule + A.rule + W.rule + -B.rule + (List.map BT.rule (A' :: a)).sum + (List.map BT.rule (W' :: Ws)).sum -
          (List.map BT.rule (B' :: b)).sum = L.rule + (A.rule + (List.map BT.rule (A' :: a)).sum) +
          (W.rule + (List.map BT.rule (W' :: Ws)).sum) - (B.rule + (List.map BT.rule (B' :: b)).sum) := by abel
      rw [e] at ih
      exact ih

theorem runs_normLoop {c : R → R} (h0 : c 0 = 0) : ∀ (a b : List (BT G R)), a ≠ [] → BlockFit2 a b →
    ∀ (L : BT G R) (l : Blk R) (l0 : Dim G), Rep L l → L.shape = [l0, leftDim b] → Opposite l0 (leftDim a) →
      Runs (fun n => normLoop n c a b L) (MP.normLoop c (a.map denseOf) (b.map denseOf) l)
        [rightDim a, flipped (rightDim b)] (L.rule + (a.map BT.rule).sum - (b.map BT.rule).sum)
  | [], _, h, _ => absurd rfl h
  | A :: a, b, _, hf => by
    intro L l l0 hL sL o0
    rcases b with _ | ⟨B, b⟩
    · cases hf.sites
    obtain ⟨SA, kA⟩ := hf.ket.1 A (by simp)
    obtain ⟨SB, kB⟩ := hf.bra.1 B (by simp)
    have hs := (List.forall₂_cons.mp hf.sites).1
    have sC : (BT.conj c B).shape = [flipped (B.shape.getD 0 []), flipped (B.shape.getD 1 []), flipped (B.shape.getD 2 [])] := by
      conv_lhs => rw [conj_shape, shape3 kB]
      rfl
    simp only [List.map_cons, List.sum_cons]
    refine runs_bind (q := L.rule + A.rule) (sh := [B.shape.getD 0 [], A.shape.getD 1 [], A.shape.getD 2 []]) ?_
      fun t z e1 e2 ht => ?_
    · exact runs_tdot hL (Rep.self SA) [0] [0] (by decide) (by decide) sL (shape3 kA) rfl rfl rfl rfl (contr1 o0) (by simp) (by simp)
    refine runs_bind (q := L.rule + A.rule + -B.rule) (sh := [A.shape.getD 2 [], flipped (B.shape.getD 2 [])]) ?_
      fun t' z' e1' e2' ht' => ?_
    · rw [← e2]
      exact runs_tdot ht (rep_conj h0 (Rep.self SB)) [0, 1] [0, 1] (by decide) (by decide) e1 sC rfl rfl rfl rfl
        (contr2 (opposite_flipped _) (by rw [hs]; exact opposite_flipped _)) (by simp) (by simp)
    rcases a with _ | ⟨A', a⟩
    · have h2 := (List.forall₂_cons.mp hf.sites).2
      cases h2
      have := runs_pure ht'
      rw [e1', e2'] at this
      simp only [List.map_nil, List.sum_nil, add_zero]
      have e : L.rule + A.rule - B.rule = L.rule + A.rule + -B.rule := by abel
      rw [e]
      exact this
    · have h2 := (List.forall₂_cons.mp hf.sites).2
      rcases b with _ | ⟨B', b⟩
      · cases h2
      rw [rightDim_cons, rightDim_cons]
      have ih := runs_normLoop h0 (A' :: a) (B' :: b) (by simp) ⟨chained_tail hf.ket, chained_tail hf.bra, h2⟩ t' z' _ ht'
        (by rw [e1']; simp only [leftDim, List.head?_cons]; rw [opposite_eq (chained_next hf.bra)])
        (by simpa [leftDim] using (chained_next hf.ket))
      rw [e2'] at ih
      have e : L.rule + A.rule + -B.rule + (List.map BT.rule (A' :: a)).sum -
          (List.map BT.rule (B' :: b)).sum = L.rule + (A.rule + (List.map BT.rule (A' :: a)).sum) -
          (B.rule + (List.map BT.rule (B' :: b)).sum) := by abel
      rw [e] at ih
      exact ih

theorem runs_contractOp {c : R → R} (h0 : c 0 = 0) (a Ws b : List (BT G R)) (ha : a ≠ []) (hf : BlockFit a Ws b)
    (L Rt : BT G R) (hL : Sound L) (hR : Sound Rt) (l0 l1 r0 r1 : Dim G) (sL : L.shape = [l0, l1, leftDim b])
    (oL0 : Opposite l0 (leftDim a)) (oL1 : Opposite l1 (leftDim Ws))
    (sR : Rt.shape = [r0, r1, rightDim b]) (oR0 : Opposite r0 (rightDim a)) (oR1 : Opposite r1 (rightDim Ws)) :
    Runs (fun n => contractOp n c a b Ws L Rt)
      (MP.contractOp c (a.map denseOf) (b.map denseOf) (Ws.map denseOf) (denseOf L) (denseOf Rt)) []
      (L.rule + (a.map BT.rule).sum + (Ws.map BT.rule).sum - (b.map BT.rule).sum + Rt.rule) := by
  refine runs_bind (runs_contractLoop h0 a Ws b ha hf L _ l0 l1 (Rep.self hL) sL oL0 oL1) fun t z e1 e2 ht => ?_
  rw [← e2]
  have f0 : Opposite (rightDim a) r0 := by rw [opposite_eq oR0]; exact flipped_opposite _
  have f1 : Opposite (rightDim Ws) r1 := by rw [opposite_eq oR1]; exact flipped_opposite _
  exact runs_tdot ht (Rep.self hR) [0, 1, 2] [0, 1, 2] (by decide) (by decide) e1 sR rfl rfl rfl rfl
    (contr3 f0 f1 (flipped_opposite _)) (by simp) (by simp)

theorem runs_contractNorm {c : R → R} (h0 : c 0 = 0) (a b : List (BT G R)) (ha : a ≠ []) (hf : BlockFit2 a b)
    (L Rt : BT G R) (hL : Sound L) (hR : Sound Rt) (l0 r0 : Dim G) (sL : L.shape = [l0, leftDim b])
    (oL0 : Opposite l0 (leftDim a)) (sR : Rt.shape = [r0, rightDim b]) (oR0 : Opposite r0 (rightDim a)) :
    Runs (fun n => contractNorm n c a b L Rt)
      (MP.contractNorm c (a.map denseOf) (b.map denseOf) (denseOf L) (denseOf Rt)) []
      (L.rule + (a.map BT.rule).sum - (b.map BT.rule).sum + Rt.rule) := by
  refine runs_bind (runs_normLoop h0 a b ha hf L _ l0 (Rep.self hL) sL oL0) fun t z e1 e2 ht => ?_
  rw [← e2]
  have f0 : Opposite (rightDim a) r0 := by rw [opposite_eq oR0]; exact flipped_opposite _
  exact runs_tdot ht (Rep.self hR) [0, 1] [0, 1] (by decide) (by decide) e1 sR rfl rfl rfl rfl
    (contr2 f0 (flipped_opposite _)) (by simp) (by simp)

end QuantiT.BN
