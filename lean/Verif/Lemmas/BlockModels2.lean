import Verif.Props.BlockModels
import Mathlib.Tactic.Linarith
/-
Lemmas for C84: a Hamiltonian made of one tensor in the bulk, with charges.
-/
set_option linter.unusedSectionVars false
namespace QuantiT
namespace BN
open Spec BT MP HM Finset
variable {G K : Type}

theorem chargeAt_one [Zero G] (q : G) : chargeAt [(1, q)] 0 = q := by
  simp [chargeAt, locate]

theorem negligible_zero [Field K] [LinearOrder K] [IsStrictOrderedRing K] : Negligible (0 : K) := by
  unfold Negligible
  simp only [abs_zero, mul_zero, add_zero]
  positivity

theorem not_negligible [Field K] [LinearOrder K] [IsStrictOrderedRing K] {x : K} (h : 2 / 10 ^ 8 ≤ |x|) : ¬ Negligible x := by
  unfold Negligible
  intro hn
  norm_num at hn h
  linarith

/-- An entry of the right charge above the cutoff survives. -/
theorem survives_of [AddCommMonoid G] [Field K] [LinearOrder K] [IsStrictOrderedRing K] {sh : Shape G} {q : G} {W : Blk K}
    {e : List Nat} (he : InRange e (sh.map dimSize)) (hq : entryCharge sh e = q) (hw : 1 / 10 ^ 4 < |W.f e|) :
    Survives sh q W e := by
  refine ⟨hq, ?_⟩
  have h0 : (0 : K) ≤ 1 / 10 ^ 4 := by positivity
  have h1 : (1 / 10 ^ 4 : K) ^ 2 < W.f e ^ 2 := by
    rw [← sq_abs (W.f e)]
    exact pow_lt_pow_left₀ hw h0 (by norm_num)
  refine h1.trans_le ?_
  unfold blockWeight
  exact Finset.single_le_sum (f := fun e' => W.f e' ^ 2) (fun _ _ => sq_nonneg _)
    (mem_filter.2 ⟨mem_configs.2 he, rfl⟩)

/-- The block of an entry where all other entries vanish. -/
theorem not_survives_of [AddCommMonoid G] [Field K] [LinearOrder K] [IsStrictOrderedRing K] {sh : Shape G} {q : G} {W : Blk K}
    {e : List Nat} (hz : ∀ e', InRange e' (sh.map dimSize) → SameBlock sh e e' → e' ≠ e → W.f e' = 0)
    (hw : |W.f e| ≤ 1 / 10 ^ 4) : ¬ Survives sh q W e := by
  rintro ⟨_, h⟩
  refine absurd h (not_lt.2 ?_)
  have : blockWeight sh W e ≤ W.f e ^ 2 := by
    unfold blockWeight
    by_cases hm : e ∈ (configs (sh.map dimSize)).filter (SameBlock sh e)
    · rw [Finset.sum_eq_single_of_mem e hm]
      intro b hb hne
      rw [mem_filter, mem_configs] at hb
      rw [hz b hb.1 hb.2 hne]
      norm_num
    · rw [Finset.sum_eq_zero]
      · positivity
      · intro b hb
        have hb' := mem_filter.1 hb
        rw [mem_configs] at hb'
        rw [hz b hb'.1 hb'.2 (fun h => hm (h ▸ hb))]
        norm_num
  refine this.trans ?_
  rw [← sq_abs]
  exact pow_le_pow_left₀ (abs_nonneg _) hw 2

section chain
variable [AddCommGroup G] [DecidableEq G] [Field K] [LinearOrder K] [IsStrictOrderedRing K]

/-- The shape of the tensors of a Hamiltonian. -/
def bulk (bond ph : Dim G) : Shape G := [bond, ph, flipped bond, flipped ph]

theorem localShape_eq (bond phys : BT G K) (b ph : Dim G) (hb : bond.shape = [b]) (hp : phys.shape = [ph]) :
    localShape bond phys = .ok ⟨bulk b ph, 0, []⟩ := by
  unfold localShape
  rw [C32_shape_from_list _ (by simp)]
  simp only [List.map_cons, List.map_nil, hb, hp, conj, inverseCvals, mapBlocks, bulk, flipped, List.flatten_cons, List.flatten_nil,
    List.append_nil, List.cons_append, List.nil_append, List.sum_cons, List.sum_nil]
  congr 2
  abel

/-- The chain of a Hamiltonian. -/
def chainOf (n k : Nat) (W : Blk K) : List (Blk K) :=
  narrow 0 (k + 1) (k + 2) W :: (List.replicate n W ++ [narrow 2 0 1 W])

theorem siteShape_first {bond ph : Dim G} {k L : Nat} (hb : dimSize bond = k + 2) :
    siteShape (bulk bond ph) L 0 = [[(1, chargeAt bond (k + 1))], ph, flipped bond, flipped ph] := by
  rw [siteShape, if_pos rfl]
  have : (((bulk bond ph).map dimSize).getD 0 0 : Int) - 1 = (k : Int) + 1 := by
    simp only [bulk, List.map_cons, List.getD_cons_zero, hb]; omega
  rw [this]
  simp only [bulk, pinned, if_true]
  rw [if_neg (by omega)]
  rfl

theorem siteShape_last {bond ph : Dim G} {n : Nat} :
    siteShape (bulk bond ph) (n + 2) (n + 1) = [bond, ph, [(1, -chargeAt bond 0)], flipped ph] := by
  rw [siteShape, if_neg (by omega), if_pos (by omega)]
  simp only [bulk, pinned, if_true]
  rw [if_neg (by omega), Int.toNat_zero, chargeAt_flipped]

theorem chainOf_get {n k : Nat} {W : Blk K} {i : Nat} {X : Blk K} (h : (chainOf n k W)[i]? = some X) :
    (i = 0 ∧ X = narrow 0 (k + 1) (k + 2) W) ∨ (0 < i ∧ i < n + 1 ∧ X = W) ∨ (i = n + 1 ∧ X = narrow 2 0 1 W) := by
  rcases i with _ | i
  · left
    cases h
    exact ⟨rfl, rfl⟩
  · right
    rw [chainOf, List.getElem?_cons_succ] at h
    by_cases hi : i < n
    · left
      rw [List.getElem?_append_left (by simpa using hi), List.getElem?_replicate, if_pos hi] at h
      cases h
      exact ⟨by omega, by omega, rfl⟩
    · right
      have := (List.getElem?_eq_some_iff.1 h).1
      simp at this
      have hie : i = n := by omega
      subst hie
      rw [List.getElem?_append_right (by simp)] at h
      simp only [List.length_replicate, Nat.sub_self, List.getElem?_cons_zero, Option.some.injEq] at h
      exact ⟨rfl, h.symm⟩

variable {bond ph : Dim G} {k d : Nat} {W : Blk K}

theorem chain_dims (hb : dimSize bond = k + 2) (hp : dimSize ph = d) (hW : W.dims = [k + 2, d, k + 2, d]) (n i : Nat) (X : Blk K)
    (h : (chainOf n k W)[i]? = some X) : X.dims = (siteShape (bulk bond ph) (n + 2) i).map dimSize := by
  rcases chainOf_get h with ⟨rfl, rfl⟩ | ⟨h1, h2, rfl⟩ | ⟨rfl, rfl⟩
  · rw [siteShape_first hb]
    simp [narrow, hW, hb, hp, dimSize_flipped, dimSize_cons]
    simp [dimSize]
  · rw [siteShape, if_neg (by omega), if_neg (by omega), hW]
    simp [bulk, hb, hp, dimSize_flipped]
  · rw [siteShape_last]
    simp [narrow, hW, hb, hp, dimSize_flipped]
    simp [dimSize]

/-- The entries of the chain are entries of the tensor in the bulk, with its charges. -/
theorem chain_entry (hb : dimSize bond = k + 2) (hp : dimSize ph = d) (hW : W.dims = [k + 2, d, k + 2, d]) (n i : Nat) (X : Blk K)
    (h : (chainOf n k W)[i]? = some X) (e : List Nat) (he : InRange e X.dims) :
    ∃ a s b t, a < k + 2 ∧ s < d ∧ b < k + 2 ∧ t < d ∧ X.f e = W.f [a, s, b, t] ∧
      entryCharge (siteShape (bulk bond ph) (n + 2) i) e =
        chargeAt bond a + (chargeAt ph s + (-chargeAt bond b + -chargeAt ph t)) := by
  have hd := chain_dims hb hp hW n i X h
  have four : ∀ {a b c d : Nat} {e : List Nat}, InRange e [a, b, c, d] → ∃ x y z w, e = [x, y, z, w] ∧ x < a ∧ y < b ∧ z < c ∧ w < d := by
    intro a b c d e he
    rcases he with _ | ⟨h1, _ | ⟨h2, _ | ⟨h3, _ | ⟨h4, he⟩⟩⟩⟩
    cases he
    exact ⟨_, _, _, _, rfl, h1, h2, h3, h4⟩
  rcases chainOf_get h with ⟨rfl, rfl⟩ | ⟨h1, h2, rfl⟩ | ⟨rfl, rfl⟩
  · have hX : (narrow 0 (k + 1) (k + 2) W).dims = [1, d, k + 2, d] := by simp [narrow, hW]
    rw [hX] at he
    obtain ⟨x, s, b, t, rfl, q1, q2, q3, q4⟩ := four he
    have hx : x = 0 := by omega
    subst hx
    refine ⟨k + 1, s, b, t, by omega, q2, q3, q4, by simp [narrow], ?_⟩
    rw [siteShape_first hb]
    simp only [entryCharge, chargeAt_one, chargeAt_flipped, add_zero]
  · rw [hW] at he
    obtain ⟨a, s, b, t, rfl, q1, q2, q3, q4⟩ := four he
    refine ⟨a, s, b, t, q1, q2, q3, q4, rfl, ?_⟩
    rw [siteShape, if_neg (by omega), if_neg (by omega)]
    simp only [bulk, entryCharge, chargeAt_flipped, add_zero]
  · have hX : (narrow 2 0 1 W).dims = [k + 2, d, 1, d] := by simp [narrow, hW]
    rw [hX] at he
    obtain ⟨a, s, x, t, rfl, q1, q2, q3, q4⟩ := four he
    have hx : x = 0 := by omega
    subst hx
    refine ⟨a, s, 0, t, q1, q2, by omega, q4, by simp [narrow], ?_⟩
    rw [siteShape_last]
    simp only [entryCharge, chargeAt_one, chargeAt_flipped, add_zero]

theorem bulk_pos (hb : dimSize bond = k + 2) (hp : dimSize ph = d) (hd : 0 < d) : ∀ x ∈ bulk bond ph, 0 < dimSize x := by
  intro x hx
  simp only [bulk, List.mem_cons, List.not_mem_nil, or_false] at hx
  rcases hx with rfl | rfl | rfl | rfl <;> first | omega | (rw [dimSize_flipped]; omega)

theorem chainOf_length (n k : Nat) (W : Blk K) : (chainOf n k W).length = n + 2 := by simp [chainOf]

/-- When the tensor in the bulk conserves the charges and has no small entries, its chain is converted. -/
theorem hamil_ok (hb : dimSize bond = k + 2) (hp : dimSize ph = d) (hd : 0 < d) (hW : W.dims = [k + 2, d, k + 2, d]) (n : Nat)
    (hq : ∀ a s b t, a < k + 2 → s < d → b < k + 2 → t < d → W.f [a, s, b, t] ≠ 0 →
      chargeAt bond a + chargeAt ph s = chargeAt bond b + chargeAt ph t ∧ 1 / 10 ^ 4 < |W.f [a, s, b, t]|) :
    ∃ out, toBMPO (chainOf n k W) (⟨bulk bond ph, 0, []⟩ : BT G K) = .ok out ∧ out.length = n + 2 ∧
      ∀ i X T, (chainOf n k W)[i]? = some X → out[i]? = some T → T.shape = siteShape (bulk bond ph) (n + 2) i ∧ T.rule = 0 ∧
        Conserving T.shape T.rule T.blocks ∧ ∀ e, InRange e X.dims → entry T.shape T.blocks e = X.f e := by
  have key := C83_to_bMPO (⟨bulk bond ph, 0, []⟩ : BT G K) rfl ⟨by simp [Sorted], by simp⟩ (bulk_pos hb hp hd) (chainOf n k W)
    (by rw [chainOf_length]; omega) (by rw [chainOf_length]; exact chain_dims hb hp hW n)
  rw [chainOf_length] at key
  have hS : ∀ i X, (chainOf n k W)[i]? = some X → ∀ e, InRange e X.dims → X.f e ≠ 0 →
      Survives (siteShape (bulk bond ph) (n + 2) i) 0 X e := by
    intro i X hX e he h0
    obtain ⟨a, s, b, t, h1, h2, h3, h4, h5, h6⟩ := chain_entry hb hp hW n i X hX e he
    rw [h5] at h0
    obtain ⟨g1, g2⟩ := hq a s b t h1 h2 h3 h4 h0
    refine survives_of (by rw [← chain_dims hb hp hW n i X hX]; exact he) ?_ (by rw [h5]; exact g2)
    rw [h6, ← add_assoc, g1]
    abel
  obtain ⟨out, o1, o2, o3⟩ := key.1 (by
    intro i X hX e he
    by_cases h0 : X.f e = 0
    · right; rw [h0]; exact negligible_zero
    · exact .inl (hS i X hX e he h0))
  refine ⟨out, o1, o2, fun i X T hX hT => ?_⟩
  have c := o3 i X T hX hT
  refine ⟨c.shape, c.rule, c.conserving, fun e he => ?_⟩
  by_cases hs : Survives (siteShape (bulk bond ph) (n + 2) i) 0 X e
  · exact c.kept e he hs
  · rw [c.lost e he hs]
    by_contra h0
    exact hs (hS i X hX e he (fun h => h0 h.symm))

/-- One entry that neither survives nor is negligible makes the conversion throw. -/
theorem hamil_throw (hb : dimSize bond = k + 2) (hp : dimSize ph = d) (hd : 0 < d) (hW : W.dims = [k + 2, d, k + 2, d]) (n : Nat)
    (i : Nat) (X : Blk K) (hX : (chainOf n k W)[i]? = some X) (e : List Nat) (he : InRange e X.dims)
    (h1 : ¬ Survives (siteShape (bulk bond ph) (n + 2) i) 0 X e) (h2 : 2 / 10 ^ 8 ≤ |X.f e|) :
    toBMPO (chainOf n k W) (⟨bulk bond ph, 0, []⟩ : BT G K) = Res.throw .invalidArgument := by
  have key := C83_to_bMPO (⟨bulk bond ph, 0, []⟩ : BT G K) rfl ⟨by simp [Sorted], by simp⟩ (bulk_pos hb hp hd) (chainOf n k W)
    (by rw [chainOf_length]; omega) (by rw [chainOf_length]; exact chain_dims hb hp hW n)
  rw [chainOf_length] at key
  refine key.2 fun h => ?_
  rcases h i X hX e he with q | q
  · exact h1 q
  · exact not_negligible h2 q

/-- An entry of the last site with the wrong charge makes the conversion throw. -/
theorem hamil_throw_charge (hb : dimSize bond = k + 2) (hp : dimSize ph = d) (hd : 0 < d) (hW : W.dims = [k + 2, d, k + 2, d])
    (n : Nat) (a s t : Nat) (ha : a < k + 2) (hs : s < d) (ht : t < d)
    (hq : chargeAt bond a + chargeAt ph s ≠ chargeAt bond 0 + chargeAt ph t) (h2 : 2 / 10 ^ 8 ≤ |W.f [a, s, 0, t]|) :
    toBMPO (chainOf n k W) (⟨bulk bond ph, 0, []⟩ : BT G K) = Res.throw .invalidArgument := by
  refine hamil_throw hb hp hd hW n (n + 1) (narrow 2 0 1 W) (by simp [chainOf]) [a, s, 0, t] ?_ ?_ (by simpa [narrow] using h2)
  · have hX : (narrow 2 0 1 W).dims = [k + 2, d, 1, d] := by simp [narrow, hW]
    rw [hX]
    exact .cons ha (.cons hs (.cons (by omega) (.cons ht .nil)))
  · rintro ⟨h, _⟩
    rw [siteShape_last] at h
    simp only [entryCharge, chargeAt_one, chargeAt_flipped, add_zero] at h
    apply hq
    rw [← add_assoc, ← neg_add] at h
    exact add_neg_eq_zero.1 h

theorem mpoEntry_congr {R : Type} [Semiring R] (d m : Nat) (D : Nat → Nat) : ∀ (Ws Ws' : List (Blk R)) (j : Nat), Ws.length = Ws'.length →
    (∀ i X X', Ws[i]? = some X → Ws'[i]? = some X' → X'.dims.getD 2 0 = X.dims.getD 2 0 ∧ X.dims.getD 2 0 = D (j + i + 1) ∧
      ∀ a s b t, a < D (j + i) → s < d → b < D (j + i + 1) → t < m → X'.f [a, s, b, t] = X.f [a, s, b, t]) →
    ∀ (s t : Nat → Nat), (∀ i, s i < d) → (∀ i, t i < m) → ∀ l r, l < D j → mpoEntry Ws' s t l r = mpoEntry Ws s t l r
  | [], [], _, _, _, _, _, _, _, _, _, _ => rfl
  | [], _ :: _, _, h, _, _, _, _, _, _, _, _ => by simp at h
  | _ :: _, [], _, h, _, _, _, _, _, _, _, _ => by simp at h
  | X :: Ws, X' :: Ws', j, h, hX, s, t, hs, ht, l, r, hl => by
    obtain ⟨h1, h2, h3⟩ := hX 0 X X' rfl rfl
    simp only [mpoEntry]
    rw [h1]
    apply sum_congr rfl
    intro b hb
    rw [mem_range, h2] at hb
    rw [h3 l (s 0) b (t 0) hl (hs 0) hb (ht 0), mpoEntry_congr d m D Ws Ws' (j + 1) (by simpa using h) _ _ _ (fun i => hs _)
      (fun i => ht _) b r hb]
    intro i Y Y' hY hY'
    have := hX (i + 1) Y Y' hY hY'
    rwa [show j + (i + 1) = j + 1 + i by omega] at this

/-- A converted chain is a chain of block tensors, for the same operator. -/
theorem hamil_chain (hb : dimSize bond = k + 2) (hp : dimSize ph = d) (hW : W.dims = [k + 2, d, k + 2, d])
    (hbl : bond.length < 2 ^ 63) (hpl : ph.length < 2 ^ 63) (n : Nat) (out : List (BT G K)) (hlen : out.length = n + 2)
    (hT : ∀ i X T, (chainOf n k W)[i]? = some X → out[i]? = some T → T.shape = siteShape (bulk bond ph) (n + 2) i ∧ T.rule = 0 ∧
        Conserving T.shape T.rule T.blocks ∧ ∀ e, InRange e X.dims → entry T.shape T.blocks e = X.f e) :
    Chained 4 out ∧ ∀ (s t : Nat → Nat), (∀ i, s i < d) → (∀ i, t i < d) →
      mpoEntry (out.map denseOf) s t 0 0 = mpoEntry (chainOf n k W) s t 0 0 := by
  have get : ∀ (i : Nat) T, out[i]? = some T → ∃ X, (chainOf n k W)[i]? = some X := by
    intro i T h
    have := (List.getElem?_eq_some_iff.1 h).1
    exact ⟨_, List.getElem?_eq_getElem (by rw [chainOf_length]; omega)⟩
  have shp : ∀ (i : Nat) T, out[i]? = some T → T.shape = siteShape (bulk bond ph) (n + 2) i := by
    intro i T h
    obtain ⟨X, hX⟩ := get i T h
    exact (hT i X T hX h).1
  have four : ∀ i, i < n + 2 → (siteShape (bulk bond ph) (n + 2) i).length = 4 ∧
      (∀ x ∈ siteShape (bulk bond ph) (n + 2) i, x.length < 2 ^ 63) ∧
      (i < n + 1 → (siteShape (bulk bond ph) (n + 2) i).getD 2 [] = flipped bond) ∧
      (0 < i → (siteShape (bulk bond ph) (n + 2) i).getD 0 [] = bond) := by
    intro i hi
    have hfl : ∀ x : Dim G, (flipped x).length = x.length := fun x => by simp [flipped]
    rcases Nat.eq_zero_or_pos i with rfl | h0
    · rw [siteShape_first hb]
      refine ⟨rfl, ?_, fun _ => rfl, fun h => absurd h (by omega)⟩
      intro x hx
      simp only [List.mem_cons, List.not_mem_nil, or_false] at hx
      rcases hx with rfl | rfl | rfl | rfl
      · simp
      · exact hpl
      · rw [hfl]; exact hbl
      · rw [hfl]; exact hpl
    · by_cases h1 : i = n + 1
      · subst h1
        rw [siteShape_last]
        refine ⟨rfl, ?_, fun h => absurd h (by omega), fun _ => rfl⟩
        intro x hx
        simp only [List.mem_cons, List.not_mem_nil, or_false] at hx
        rcases hx with rfl | rfl | rfl | rfl
        · exact hbl
        · exact hpl
        · simp
        · rw [hfl]; exact hpl
      · rw [siteShape, if_neg (by omega), if_neg (by omega)]
        refine ⟨rfl, ?_, fun _ => rfl, fun _ => rfl⟩
        intro x hx
        simp only [bulk, List.mem_cons, List.not_mem_nil, or_false] at hx
        rcases hx with rfl | rfl | rfl | rfl
        · exact hbl
        · exact hpl
        · rw [hfl]; exact hbl
        · rw [hfl]; exact hpl
  refine ⟨⟨?_, ?_⟩, ?_⟩
  · intro T hTm
    obtain ⟨i, hi⟩ := List.mem_iff_getElem?.1 hTm
    obtain ⟨X, hX⟩ := get i T hi
    obtain ⟨q1, q2, q3, _⟩ := hT i X T hX hi
    have hil : i < n + 2 := hlen ▸ (List.getElem?_eq_some_iff.1 hi).1
    refine ⟨⟨q3, ?_⟩, ?_⟩
    · rw [q1]; exact (four i hil).2.1
    · rw [q1]; exact (four i hil).1
  · intro i T T' h1 h2
    have hil : i + 1 < n + 2 := hlen ▸ (List.getElem?_eq_some_iff.1 h2).1
    rw [shp i T h1, shp _ T' h2, (four i (by omega)).2.2.1 (by omega), (four (i + 1) hil).2.2.2 (by omega)]
    exact opposite_symm (opposite_flipped bond)
  · intro s t hs ht
    refine mpoEntry_congr d d (fun i => if i = 0 then 1 else if i = n + 2 then 1 else k + 2) (chainOf n k W) (out.map denseOf) 0
      (by rw [chainOf_length, List.length_map, hlen]) ?_ s t hs ht 0 0 (by simp)
    intro i X X' hX hX'
    rw [List.getElem?_map, Option.map_eq_some_iff] at hX'
    obtain ⟨T, hTi, rfl⟩ := hX'
    obtain ⟨q1, _, _, q4⟩ := hT i X T hX hTi
    have hd := chain_dims hb hp hW n i X hX
    have hil : i < n + 2 := hlen ▸ (List.getElem?_eq_some_iff.1 hTi).1
    have hdim : X.dims = [if i = 0 then 1 else k + 2, d, if i = n + 1 then 1 else k + 2, d] := by
      rcases chainOf_get hX with ⟨rfl, rfl⟩ | ⟨h1, h2, rfl⟩ | ⟨rfl, rfl⟩
      · simp [narrow, hW]
      · rw [hW, if_neg (by omega), if_neg (by omega)]
      · simp [narrow, hW]
    refine ⟨?_, ?_, ?_⟩
    · show (T.shape.map dimSize).getD 2 0 = _
      rw [q1, ← hd]
    · rw [hdim]
      simp only [List.getD_cons_succ, List.getD_cons_zero, Nat.zero_add]
      by_cases h1 : i = n + 1
      · subst h1; simp
      · rw [if_neg h1, if_neg (by omega), if_neg (by omega)]
    · intro a s b t ha hs hb' ht
      refine q4 [a, s, b, t] ?_
      rw [hdim]
      refine .cons ?_ (.cons hs (.cons ?_ (.cons ht .nil)))
      · simp only [Nat.zero_add] at ha
        by_cases h0 : i = 0
        · subst h0; simpa using ha
        · rw [if_neg h0] at ha ⊢
          rwa [if_neg (by omega)] at ha
      · simp only [Nat.zero_add] at hb'
        by_cases h0 : i = n + 1
        · subst h0; simpa using hb'
        · rw [if_neg h0]
          rwa [if_neg (by omega), if_neg (by omega)] at hb'

/-- What the entries of a tensor made of channels have to satisfy. -/
theorem channel_entries {A B : Nat → Nat → Nat → K} {loc : Nat → Nat → K} (h : Channels W d k A B loc) {p c : Nat → G}
    {P : K → Prop} (h1 : P 1)
    (hA : ∀ i s t, i < k → s < d → t < d → A i s t ≠ 0 → c (k + 1) + p s = c (i + 1) + p t ∧ P (A i s t))
    (hB : ∀ i s t, i < k → s < d → t < d → B i s t ≠ 0 → c (i + 1) + p s = c 0 + p t ∧ P (B i s t))
    (hl : ∀ s t, s < d → t < d → loc s t ≠ 0 → c (k + 1) + p s = c 0 + p t ∧ P (loc s t)) :
    ∀ a s b t, a < k + 2 → s < d → b < k + 2 → t < d → W.f [a, s, b, t] ≠ 0 → c a + p s = c b + p t ∧ P (W.f [a, s, b, t]) := by
  intro a s b t ha hs hb ht h0
  have hdel : ∀ a, (del s t : K) ≠ 0 → c a + p s = c a + p t ∧ P (del s t) := by
    intro a hne
    unfold del at hne ⊢
    by_cases hst : s = t
    · rw [if_pos hst]; exact ⟨by rw [hst], h1⟩
    · rw [if_neg hst] at hne; exact absurd rfl hne
  rcases Nat.eq_zero_or_pos b with rfl | hb0
  · rcases Nat.eq_zero_or_pos a with rfl | ha0
    · rw [h.done s t hs ht] at h0 ⊢
      exact hdel 0 h0
    · by_cases hak : a = k + 1
      · subst hak
        rw [h.onsite s t hs ht] at h0 ⊢
        exact hl s t hs ht h0
      · obtain ⟨i, rfl⟩ : ∃ i, a = i + 1 := ⟨a - 1, by omega⟩
        rw [h.second i s t (by omega) hs ht] at h0 ⊢
        exact hB i s t (by omega) hs ht h0
  · by_cases hak : a = k + 1
    · subst hak
      by_cases hbk : b = k + 1
      · subst hbk
        rw [h.wait s t hs ht] at h0 ⊢
        exact hdel _ h0
      · obtain ⟨i, rfl⟩ : ∃ i, b = i + 1 := ⟨b - 1, by omega⟩
        rw [h.first i s t (by omega) hs ht] at h0 ⊢
        exact hA i s t (by omega) hs ht h0
    · exact absurd (h.zero a b s t (by omega) hb0 hs ht) h0

theorem locate_unit : ∀ {d : Dim G} {x b o : Nat}, (∀ s ∈ d, s.1 = 1) → locate d x = some (b, o) → b = x
  | [], _, _, _, _, h => by simp [locate] at h
  | s :: d, x, b, o, hu, h => by
    have h1 := hu s List.mem_cons_self
    rw [locate, h1] at h
    by_cases hx : x < 1
    · rw [if_pos hx] at h
      simp only [Option.some.injEq, Prod.mk.injEq] at h
      omega
    · rw [if_neg hx, Option.map_eq_some_iff] at h
      obtain ⟨⟨b', o'⟩, h2, h3⟩ := h
      have := locate_unit (fun s hs => hu s (List.mem_cons_of_mem _ hs)) h2
      simp only [Prod.mk.injEq] at h3
      omega

theorem sameBlock_cons {d : Dim G} {ds : Shape G} {x y : Nat} {xs ys : List Nat} (h1 : x < dimSize d) (h2 : y < dimSize d)
    (h3 : InRange xs (ds.map dimSize)) (h4 : InRange ys (ds.map dimSize)) :
    SameBlock (d :: ds) (x :: xs) (y :: ys) ↔ (locate d x).map Prod.fst = (locate d y).map Prod.fst ∧ SameBlock ds xs ys := by
  obtain ⟨p, hp⟩ := locate_isSome.2 h1
  obtain ⟨q, hq⟩ := locate_isSome.2 h2
  obtain ⟨P, hP⟩ := locateAll_isSome.2 h3
  obtain ⟨Q, hQ⟩ := locateAll_isSome.2 h4
  unfold SameBlock
  simp [locateAll, hp, hq, hP, hQ]

/-- A small entry alone in its block of the first tensor makes the conversion throw. -/
theorem hamil_throw_small (hb : dimSize bond = k + 2) (hu : ∀ x ∈ bond, x.1 = 1) (hp : dimSize ph = d) (hd : 0 < d)
    (hW : W.dims = [k + 2, d, k + 2, d]) (n s b t : Nat) (hs : s < d) (hb' : b < k + 2) (ht : t < d)
    (h0 : ∀ s' t', s' < d → t' < d → (locate ph s).map Prod.fst = (locate ph s').map Prod.fst →
      (locate ph t).map Prod.fst = (locate ph t').map Prod.fst → (s', t') ≠ (s, t) → W.f [k + 1, s', b, t'] = 0)
    (h1 : |W.f [k + 1, s, b, t]| ≤ 1 / 10 ^ 4) (h2 : 2 / 10 ^ 8 ≤ |W.f [k + 1, s, b, t]|) :
    toBMPO (chainOf n k W) (⟨bulk bond ph, 0, []⟩ : BT G K) = Res.throw .invalidArgument := by
  have hf : ∀ s b t, (narrow 0 (k + 1) (k + 2) W).f [0, s, b, t] = W.f [k + 1, s, b, t] := by intros; simp [narrow]
  refine hamil_throw hb hp hd hW n 0 (narrow 0 (k + 1) (k + 2) W) (by simp [chainOf]) [0, s, b, t] ?_ ?_ (by rw [hf]; exact h2)
  · have hX : (narrow 0 (k + 1) (k + 2) W).dims = [1, d, k + 2, d] := by simp [narrow, hW]
    rw [hX]
    exact .cons (by omega) (.cons hs (.cons hb' (.cons ht .nil)))
  · refine not_survives_of ?_ (by rw [hf]; exact h1)
    rw [siteShape_first hb]
    intro e he hsame hne
    simp only [List.map_cons, List.map_nil, dimSize_flipped, hp, hb] at he
    rcases he with _ | ⟨q1, _ | ⟨q2, _ | ⟨q3, _ | ⟨q4, he⟩⟩⟩⟩
    cases he
    rename_i a' s' b' t'
    have ha : a' = 0 := by simp [dimSize] at q1; omega
    subst ha
    have r0 : ∀ {x y z : Nat}, x < d → y < k + 2 → z < d → InRange [x, y, z] ([ph, flipped bond, flipped ph].map dimSize) := by
      intro x y z h1 h2 h3
      exact .cons (by rw [hp]; exact h1) (.cons (by rw [dimSize_flipped, hb]; exact h2) (.cons (by rw [dimSize_flipped, hp]; exact h3) .nil))
    have r1 : ∀ {y z : Nat}, y < k + 2 → z < d → InRange [y, z] ([flipped bond, flipped ph].map dimSize) := by
      intro y z h2 h3
      exact .cons (by rw [dimSize_flipped, hb]; exact h2) (.cons (by rw [dimSize_flipped, hp]; exact h3) .nil)
    have r2 : ∀ {z : Nat}, z < d → InRange [z] ([flipped ph].map dimSize) := by
      intro z h3
      exact .cons (by rw [dimSize_flipped, hp]; exact h3) .nil
    rw [sameBlock_cons q1 q1 (r0 hs hb' ht) (r0 q2 q3 q4), sameBlock_cons (by rw [hp]; exact hs) (by rw [hp]; exact q2) (r1 hb' ht) (r1 q3 q4),
      sameBlock_cons (by rw [dimSize_flipped, hb]; exact hb') (by rw [dimSize_flipped, hb]; exact q3) (r2 ht) (r2 q4),
      sameBlock_cons (ds := []) (xs := []) (ys := []) (by rw [dimSize_flipped, hp]; exact ht) (by rw [dimSize_flipped, hp]; exact q4) .nil .nil] at hsame
    obtain ⟨_, g1, g2, g3, _⟩ := hsame
    have eb : b' = b := by
      obtain ⟨⟨x, o⟩, hx⟩ := locate_isSome.2 (show b < dimSize (flipped bond) by rw [dimSize_flipped, hb]; exact hb')
      obtain ⟨⟨y, o'⟩, hy⟩ := locate_isSome.2 (show b' < dimSize (flipped bond) by rw [dimSize_flipped, hb]; exact q3)
      have hu' : ∀ x ∈ flipped bond, x.1 = 1 := by
        intro x hx
        obtain ⟨y, hy, rfl⟩ := List.mem_map.1 hx
        exact hu y hy
      rw [hx, hy] at g2
      have := locate_unit hu' hx
      have := locate_unit hu' hy
      simp only [Option.map_some, Option.some.injEq] at g2
      omega
    subst eb
    have lf : ∀ (d : Dim G) x, locate (flipped d) x = locate d x := by
      intro d
      induction d with
      | nil => intro x; rfl
      | cons s d ih => intro x; show (if x < s.1 then some (0, x) else (locate (flipped d) (x - s.1)).map _) = _; rw [ih]; rfl
    rw [lf, lf] at g3
    rw [hf]
    exact h0 s' t' q2 q4 g1 g3 (fun h => hne (by simp only [Prod.mk.injEq] at h; rw [h.1, h.2]))

end chain
end BN
end QuantiT
