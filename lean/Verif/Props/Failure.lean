import Verif.Spec.Failure
import Verif.Lemmas.MergeThrow
import Verif.Props.BTensorOps
import Verif.Props.Broadcast
import Verif.Props.IndexPut
/-
C108: a modifying call that throws leaves the tensor as it was.
-/
namespace QuantiT
namespace BT
open Spec FM
variable {G R : Type}

theorem unharmed_done {t r : BT G R} {o : Outcome G R} (h : o = .done r) : Unharmed o t := by
  intro e w hw; rw [h] at hw; cases hw

theorem unharmed_intact {t : BT G R} {o : Outcome G R} {e : Exn} (h : o = .threw e (intact t)) : Unharmed o t := by
  intro e w hw; rw [h] at hw; cases hw; exact ⟨rfl, rfl, rfl⟩

/-! ### Addition -/

theorem bcDims_self (d : List Nat) : bcDims d d = some d := by
  have h := bcDims_eq (a := []) (xs := d) (ys := d) (List.forall₂_same.2 fun x _ => Or.inl rfl)
  rw [List.nil_append, List.nil_append] at h
  rw [h]
  congr 1
  clear h
  induction d with
  | nil => rfl
  | cons n d ih => simp only [List.zipWith_cons_cons, ih, bsize]; split <;> simp_all

theorem addCheck_either [DecidableEq G] (a b : BT G R) : addCheck a b = .ok () ∨ addCheck a b = Res.throw .invalidArgument := by
  unfold addCheck
  split
  · exact Or.inr rfl
  · split
    · exact Or.inr rfl
    · split
      · exact Or.inr rfl
      · exact Or.inl rfl

theorem addCheck_counts [AddCommMonoid G] [DecidableEq G] {a b : BT G R} (hcnt : secCounts a.shape = secCounts b.shape)
    (h : addCheck a b = .ok ()) : a.shape = b.shape ∧ a.rule = b.rule := by
  by_contra hne
  have h1 := C22_same_counts_partial (R := Nat) ⟨a.shape, a.rule, []⟩ ⟨b.shape, b.rule, []⟩ hcnt 0 hne
  have h2 : addCheck (⟨a.shape, a.rule, []⟩ : BT G Nat) ⟨b.shape, b.rule, []⟩ = .ok () := h
  unfold add at h1
  rw [h2] at h1
  cases h1

/-- **C108**, `add_`: for conserving tensors whose dimensions have the same numbers of sections, an addition that throws leaves
the tensor as it was, and one that returns leaves the sum.  Missing: other divisions of the sections among the dimensions
(`C108_add_fails`). -/
theorem C108_add_partial [AddCommMonoid G] [DecidableEq G] [Semiring R] (a b : BT G R) (alpha : R)
    (ha : Conserving a.shape a.rule a.blocks) (hb : Conserving b.shape b.rule b.blocks)
    (hcnt : secCounts a.shape = secCounts b.shape) :
    Unharmed (addIn a b alpha) a ∧ addIn a b alpha ≠ .ub ∧ ∀ r, addIn a b alpha = .done r ↔ add a b alpha = .ok r := by
  rcases addCheck_either a b with h | h
  · obtain ⟨hsh, hr⟩ := addCheck_counts hcnt h
    have hf : ∀ k v w, lookup a.blocks k = some v → lookup b.blocks k = some w → addBlkT alpha v w = some (addBlk alpha v w) := by
      intro k v w hv hw
      obtain ⟨s1, x1, _, x3⟩ := ha.block k v (mem_of_lookup hv)
      obtain ⟨s2, y1, _, y3⟩ := hb.block k w (mem_of_lookup hw)
      rw [hsh, y1] at x1
      cases x1
      have hd : v.dims = w.dims := by rw [x3, y3]
      unfold addBlkT addBlk
      rw [hd, if_pos (bcDims_self _)]
      simp
    obtain ⟨m, m1, m2⟩ := mergeInsertT_ok (g := scaleBlk alpha) hf ha.sorted hb.sorted
    have e1 : addIn a b alpha = .done { a with blocks := m } := by simp only [addIn, guarded, h, m1]
    have e2 : add a b alpha = .ok { a with blocks := m } := by simp only [add, h, m2, bind, Except.bind]
    refine ⟨unharmed_done e1, by rw [e1]; simp, ?_⟩
    intro r
    rw [e1, e2]
    simp
  · have e1 : addIn a b alpha = .threw .invalidArgument (intact a) := by simp only [addIn, guarded, h, Res.throw]
    have e2 : add a b alpha = Res.throw .invalidArgument := by simp only [add, h, bind, Except.bind, Res.throw]
    refine ⟨unharmed_intact e1, by rw [e1]; simp, ?_⟩
    intro r
    rw [e1, e2]
    simp [Res.throw]

/-- Two dimensions, the second with two sections. -/
def failA : BT ℤ ℤ := ⟨[[(2, 0)], [(3, 0), (2, 0)]], 0, [([0, 0], ⟨[2, 3], fun _ => 1⟩), ([0, 1], ⟨[2, 2], fun _ => 1⟩)]⟩
/-- The same three sections, two of them in the first dimension. -/
def failB : BT ℤ ℤ := ⟨[[(2, 0), (3, 0)], [(2, 0)]], 0, [([0, 0], ⟨[2, 2], fun _ => 1⟩), ([1, 0], ⟨[3, 2], fun _ => 1⟩)]⟩

theorem failA_conserving : Conserving failA.shape failA.rule failA.blocks := by
  refine ⟨by simp [Sorted, failA]; decide, ?_⟩
  intro k b h
  simp only [failA, List.mem_cons, Prod.mk.injEq, List.not_mem_nil, or_false] at h
  rcases h with ⟨rfl, rfl⟩ | ⟨rfl, rfl⟩
  · exact ⟨[(2, 0), (3, 0)], rfl, rfl, rfl⟩
  · exact ⟨[(2, 0), (2, 0)], rfl, rfl, rfl⟩

theorem failB_conserving : Conserving failB.shape failB.rule failB.blocks := by
  refine ⟨by simp [Sorted, failB]; decide, ?_⟩
  intro k b h
  simp only [failB, List.mem_cons, Prod.mk.injEq, List.not_mem_nil, or_false] at h
  rcases h with ⟨rfl, rfl⟩ | ⟨rfl, rfl⟩
  · exact ⟨[(2, 0), (2, 0)], rfl, rfl, rfl⟩
  · exact ⟨[(3, 0), (2, 0)], rfl, rfl, rfl⟩

/-- The hypotheses of `C108_add_partial` on a sum that returns and on one that throws. -/
example : secCounts failA.shape = secCounts failA.shape ∧ (∃ r, addIn failA failA 2 = .done r) ∧
    secCounts failA.shape = secCounts ({ failA with rule := 1, blocks := [] } : BT ℤ ℤ).shape ∧
    addIn failA { failA with rule := 1, blocks := [] } 2 = .threw .invalidArgument (intact failA) :=
  ⟨rfl, ⟨_, rfl⟩, rfl, rfl⟩

/-- **C108** fails for `add_` when the same sections are divided otherwise among the dimensions: the check accepts them, a block
outside the grid is stored, then the sizes of two blocks disagree and the exception leaves it there. -/
theorem C108_add_fails : ∃ a b : BT ℤ ℤ, Conserving a.shape a.rule a.blocks ∧ Conserving b.shape b.rule b.blocks ∧
    ¬ Unharmed (addIn a b 1) a ∧
    ∃ w k blk, addIn a b 1 = .threw .runtimeError w ∧ some (k, blk) ∈ w.cells ∧ sections w.shape k = none := by
  have h : addIn failA failB 1 = .threw .runtimeError ⟨failA.shape, failA.rule,
      [some ([0, 0], ⟨[2, 3], fun _ => 1⟩), some ([0, 1], ⟨[2, 2], fun _ => 1⟩), some ([1, 0], scaleBlk 1 ⟨[3, 2], fun _ => 1⟩)]⟩ := by
    rfl
  refine ⟨failA, failB, failA_conserving, failB_conserving, ?_, _, [1, 0], scaleBlk 1 ⟨[3, 2], fun _ => 1⟩, h, by simp, rfl⟩
  intro hu
  have := congrArg List.length (hu _ _ h).2.2
  simp [failA] at this

/-! ### Writing a slice -/

theorem putLoopT_ok [Zero R] (f : List (Option Nat)) (el : List (Option Int)) : ∀ (l : List (List Nat × Blk R)) (t r : BT G R),
    putLoopT f el t l = .done r ↔ l.foldlM (putOnce f el) t = .ok r
  | [], t, r => by simp [putLoopT, pure, Except.pure]
  | kb :: l, t, r => by
    rw [List.foldlM_cons]
    unfold putLoopT putOnce
    simp only [bind, Except.bind]
    rcases outputIndex f kb.1 with (e | _) | k
    · simp [guarded]
    · simp [guarded]
    simp only [guarded]
    by_cases hc : FM.contains t.blocks k = true
    · simp only [hc, if_true]
      rcases FM.at? t.blocks k with (e | _) | old
      · simp
      · simp
      simp only
      rcases indexPutEl old el kb.2 with (e | _) | new
      · simp
      · simp
      exact putLoopT_ok f el l _ r
    · simp only [hc]
      rcases blockSizes t k with (e | _) | sz
      · simp
      · simp
      simp only [Bool.false_eq_true, if_false]
      rcases FM.at? (FM.insert t.blocks k ⟨sz, fun _ => 0⟩).1 k with (e | _) | old
      · simp
      · simp
      simp only
      rcases indexPutEl old el kb.2 with (e | _) | new
      · simp
      · simp
      exact putLoopT_ok f el l _ r

/-- **C108**, `basic_index_put_`: when the last dimension is kept and the dimensions of `value` have the numbers of sections of
the slice, a call that throws leaves the tensor as it was.  Missing: other divisions of the sections
(`C108_index_put_fails`), a fixed last dimension (as C65). -/
theorem C108_index_put_partial [AddCommGroup G] [DecidableEq G] [Zero R] (t value : BT G R)
    (hc : Conserving t.shape t.rule t.blocks) (hp : Populated t.shape) (dims : List Int) (h : Picks t.shape dims)
    (hlast : dims.getLast? = some (-1)) (hv : Conserving value.shape value.rule value.blocks)
    (hcnt : secCounts (kept t.shape dims) = secCounts value.shape) :
    Unharmed (indexPutIn t dims value) t ∧ indexPutIn t dims value ≠ .ub ∧
      ∀ r, indexPutIn t dims value = .done r ↔ basicIndexPut t dims value = .ok r := by
  have hs := shapeFrom_eq h hp
  rcases addCheck_either ⟨kept t.shape dims, t.rule - fixedCharge t.shape dims, []⟩ value with hk | hk
  · obtain ⟨e1, e2⟩ := addCheck_counts hcnt hk
    obtain ⟨r, r1, _⟩ := C65_index_put_partial t value hc hp dims h hlast hv e1.symm e2.symm
    have hd : ∀ r, indexPutIn t dims value = .done r ↔ basicIndexPut t dims value = .ok r := by
      intro r
      unfold indexPutIn basicIndexPut
      simp only [hs, hk, guarded, bind, Except.bind]
      exact putLoopT_ok _ _ _ _ _
    have := (hd r).2 r1
    exact ⟨unharmed_done this, by rw [this]; simp, hd⟩
  · have e1 : indexPutIn t dims value = .threw .invalidArgument (intact t) := by
      simp only [indexPutIn, hs, hk, guarded, Res.throw]
    have e2 : basicIndexPut t dims value = Res.throw .invalidArgument := by
      simp only [basicIndexPut, hs, hk, bind, Except.bind, Res.throw]
    refine ⟨unharmed_intact e1, by rw [e1]; simp, ?_⟩
    intro r
    rw [e1, e2]
    simp [Res.throw]

/-- **C108**, `basic_index_put_` with a position that does not exist or the wrong number of entries: the call throws before
anything is written. -/
theorem C108_index_put_bad_partial [AddCommGroup G] [DecidableEq G] [Zero R] (t value : BT G R) (dims : List Int) (e : Exn)
    (h : shapeFrom t dims = Res.throw e) : Unharmed (indexPutIn t dims value) t ∧ ∃ w, indexPutIn t dims value = .threw e w := by
  have e1 : indexPutIn t dims value = .threw e (intact t) := by simp only [indexPutIn, h, guarded, Res.throw]
  exact ⟨unharmed_intact e1, _, e1⟩

/-- One row, three sections. -/
def failT : BT ℤ ℤ := ⟨[[(1, 0)], [(1, 0), (1, 0), (2, 0)]], 0, [([0, 0], ⟨[1, 1], fun _ => 5⟩)]⟩
/-- The same sections as two rows and two columns. -/
def failV : BT ℤ ℤ := ⟨[[(1, 0), (1, 0)], [(1, 0), (2, 0)]], 0, [([0, 0], ⟨[1, 1], fun _ => 7⟩), ([0, 1], ⟨[1, 2], fun _ => 7⟩)]⟩

theorem failT_conserving : Conserving failT.shape failT.rule failT.blocks := by
  refine ⟨by simp [Sorted, failT], ?_⟩
  intro k b h
  simp only [failT, List.mem_cons, Prod.mk.injEq, List.not_mem_nil, or_false] at h
  obtain ⟨rfl, rfl⟩ := h
  exact ⟨[(1, 0), (1, 0)], rfl, rfl, rfl⟩

theorem failV_conserving : Conserving failV.shape failV.rule failV.blocks := by
  refine ⟨by simp [Sorted, failV]; decide, ?_⟩
  intro k b h
  simp only [failV, List.mem_cons, Prod.mk.injEq, List.not_mem_nil, or_false] at h
  rcases h with ⟨rfl, rfl⟩ | ⟨rfl, rfl⟩
  · exact ⟨[(1, 0), (1, 0)], rfl, rfl, rfl⟩
  · exact ⟨[(1, 0), (2, 0)], rfl, rfl, rfl⟩

/-- The hypotheses of `C108_index_put_partial`, on a call that returns and one that throws; and of `_bad_partial`. -/
example : Populated failT.shape ∧ Picks failT.shape [-1, -1] ∧ secCounts (kept failT.shape [-1, -1]) = secCounts failT.shape ∧
    (∃ r, indexPutIn failT [-1, -1] failT = .done r) ∧
    indexPutIn failT [-1, -1] { failT with rule := 1, blocks := [] } = .threw .invalidArgument (intact failT) ∧
    shapeFrom failT [-1, 9] = Res.throw .invalidArgument := by
  refine ⟨by simp [Populated, failT], ?_, rfl, ⟨_, rfl⟩, rfl, rfl⟩
  unfold Picks
  exact .cons (Or.inl rfl) (.cons (Or.inl rfl) .nil)

/-- **C108** fails for `basic_index_put_` with the sections of `value` divided otherwise: the first block is overwritten, a block
of zeros is added, then the sizes disagree and the exception leaves the slice half written. -/
theorem C108_index_put_fails : ∃ (t value : BT ℤ ℤ) (dims : List Int), Conserving t.shape t.rule t.blocks ∧
    Conserving value.shape value.rule value.blocks ∧ Populated t.shape ∧ Picks t.shape dims ∧
    ¬ Unharmed (indexPutIn t dims value) t ∧
    ∃ w, indexPutIn t dims value = .threw .runtimeError w ∧
      (∃ b, some ([0, 0], b) ∈ w.cells ∧ b.f [0, 0] = 7) ∧ entry t.shape t.blocks [0, 0] = 5 := by
  obtain ⟨w, h, b, hb, hf⟩ : ∃ w, indexPutIn failT [-1, -1] failV = .threw .runtimeError w ∧
      ∃ b, some ([0, 0], b) ∈ w.cells ∧ b.f [0, 0] = 7 := by
    refine ⟨_, rfl, _, List.mem_cons_self, rfl⟩
  refine ⟨failT, failV, [-1, -1], failT_conserving, failV_conserving, by simp [Populated, failT], ?_, ?_, w, h, ⟨b, hb, hf⟩, rfl⟩
  · unfold Picks
    exact .cons (Or.inl rfl) (.cons (Or.inl rfl) .nil)
  · intro hu
    rw [(hu _ _ h).2.2] at hb
    simp only [failT, List.map_cons, List.map_nil, List.mem_singleton, Option.some.injEq, Prod.mk.injEq, true_and] at hb
    rw [hb] at hf
    exact absurd hf (by decide)

/-! ### Multiplication, division, power -/

theorem shapeDim_split [AddCommMonoid G] {l s : Dim G} (hl : l ≠ []) (hs : s ≠ []) :
    (l.length = s.length ∨ OneElement l ∨ OneElement s) ∧ (∃ r, shapeDim l s = .ok r) ∨
      ¬ (l.length = s.length ∨ OneElement l ∨ OneElement s) ∧ shapeDim l s = Res.throw .invalidArgument := by
  have hadd : ∀ a b : Dim G, b ≠ [] → ∃ r, addCharges a b = .ok r := by
    intro a b hb
    unfold addCharges
    cases b with
    | nil => exact absurd rfl hb
    | cons q b => exact ⟨_, rfl⟩
  have hd : ∃ d, (if l.length > s.length then addCharges l s else addCharges s l : Res (Dim G)) = .ok d := by
    split
    · exact hadd _ _ hs
    · exact hadd _ _ hl
  obtain ⟨d, hd⟩ := hd
  by_cases h : maskDim l s = 0 ∧ s.length ≠ l.length
  · right
    refine ⟨?_, by unfold shapeDim; simp only [if_pos h]⟩
    rintro (h1 | h1)
    · exact h.2 h1.symm
    · exact maskDim_ne.2 h1 h.1
  · left
    refine ⟨?_, ⟨(maskDim l s, d), ?_⟩⟩
    · by_cases hm : maskDim l s = 0
      · left
        by_contra hc
        exact h ⟨hm, fun e => hc e.symm⟩
      · exact Or.inr (maskDim_ne.1 hm)
    · unfold shapeDim
      simp only [if_neg h, hd, bind, Except.bind]

theorem shapes_reject [AddCommMonoid G] : ∀ {ls ss : Shape G}, (∀ d ∈ ls, d ≠ []) → (∀ d ∈ ss, d ≠ []) → ls.length = ss.length →
    ¬ List.Forall₂ (fun d d' => d.length = d'.length ∨ OneElement d ∨ OneElement d') ls ss →
    (ls.zip ss).mapM (fun p => shapeDim p.1 p.2) = Res.throw .invalidArgument
  | [], [], _, _, _, h => absurd .nil h
  | [], _ :: _, _, _, hl, _ => by simp at hl
  | _ :: _, [], _, _, hl, _ => by simp at hl
  | l :: ls, s :: ss, h1, h2, hl, h => by
    rw [List.zip_cons_cons, List.mapM_cons]
    simp only [bind, Except.bind]
    rcases shapeDim_split (h1 l (by simp)) (h2 s (by simp)) with ⟨a, r, e⟩ | ⟨_, e⟩
    · have := shapes_reject (fun d hd => h1 d (by simp [hd])) (fun d hd => h2 d (by simp [hd])) (by simpa using hl)
        fun hc => h (.cons a hc)
      simp only [e, this]
      rfl
    · simp only [e]
      rfl

/-- In place, at most one block of the argument meets a block of the tensor. -/
theorem inPlace_unique : ∀ {ls ss : Shape G}, canInPlace true (List.zipWith maskDim ls ss) = true →
    ∀ {ki kj kj' : List Nat} {ys ys' : List (Nat × G)}, sections ss kj = some ys → sections ss kj' = some ys' →
      MaskEq (List.zipWith maskDim ls ss) ki kj → MaskEq (List.zipWith maskDim ls ss) ki kj' → kj = kj'
  | [], _, _, _, _, _, _, _, _, _, h1, h2 => by
    simp only [List.zipWith_nil_left] at h1 h2
    cases h1; cases h2; rfl
  | _ :: _, [], _, _, _, _, _, _, _, _, h1, h2 => by
    simp only [List.zipWith_nil_right] at h1 h2
    cases h1; cases h2; rfl
  | l :: ls, s :: ss, hc, ki, kj, kj', ys, ys', e1, e2, h1, h2 => by
    simp only [List.zipWith_cons_cons] at hc h1 h2
    have hc2 : canInPlace true (List.zipWith maskDim ls ss) = true := by
      simp only [canInPlace, List.all_cons, Bool.and_eq_true] at hc ⊢
      exact hc.2
    have hc1 : OneElement l → OneElement s := by
      intro hl
      by_contra hs
      simp only [canInPlace, List.all_cons, Bool.and_eq_true] at hc
      have := hc.1
      simp [maskDim_parts, hl, hs] at this
    cases h1 with
    | @cons _ i j _ is js a1 b1 =>
      cases h2 with
      | @cons _ _ j' _ _ js' a2 b2 =>
        obtain ⟨y, yr, y1, y2, rfl⟩ := sections_cons.1 e1
        obtain ⟨y', yr', z1, z2, rfl⟩ := sections_cons.1 e2
        have ht := inPlace_unique hc2 y2 z2 b1 b2
        have hj : j = j' := by
          by_cases hm : maskDim l s = 0
          · rw [← a1.resolve_left (fun h => h hm), ← a2.resolve_left (fun h => h hm)]
          · have hs : OneElement s := by
              rcases maskDim_ne.1 hm with h | h
              · exact hc1 h
              · exact h
            obtain ⟨q, rfl⟩ := oneElement_iff.1 hs
            have g1 := (List.getElem?_eq_some_iff.1 y1).1
            have g2 := (List.getElem?_eq_some_iff.1 z1).1
            simp at g1 g2
            omega
        rw [ht, hj]

/-- The loops, when no block of the tensor is met twice in place: what the loop over the unchanged blocks computes. -/
theorem broadcastLoopT_ok (op : R → R → R) (inPlace : Bool) (mask : List Nat) (a : BT G R) (next : FM (List Nat) (Blk R) → Outcome G R) :
    ∀ (l : List ((List Nat × Blk R) × Nat)) (t : BT G R) (out r : FM (List Nat) (Blk R)) (ps : List ((List Nat × Blk R) × List Nat × Blk R)),
      (∀ i : Nat, (t.blocks[i]?).map Prod.fst = (a.blocks[i]?).map Prod.fst) →
      List.Forall₂ (fun p q => q.1 = p.1 ∧ a.blocks[p.2]? = some q.2) l ps →
      (∀ p ∈ l, ∀ x, a.blocks[p.2]? = some x → matchIndex mask x.1 p.1.1 = true → t.blocks[p.2]? = some x) →
      (inPlace = true → l.Pairwise fun p q => p.2 = q.2 → ∀ x, a.blocks[p.2]? = some x →
        matchIndex mask x.1 p.1.1 = true → matchIndex mask x.1 q.1.1 = true → False) →
      ps.foldlM (broadcastStepInPlace op inPlace mask) out = .ok r →
      broadcastLoopT op inPlace mask t out l next = next r
  | [], t, out, r, ps, _, hps, _, _, h => by
    cases hps
    simp only [List.foldlM_nil, pure, Except.pure, Except.ok.injEq] at h
    subst h
    rfl
  | p :: l, t, out, r, ps, hk, hps, hcur, hpw, h => by
    cases hps with
    | @cons _ q _ ps' hq hps' =>
      obtain ⟨q1, q2⟩ := hq
      rw [List.foldlM_cons] at h
      simp only [bind, Except.bind] at h
      obtain ⟨o, i⟩ := p
      obtain ⟨qo, qx⟩ := q
      simp only at q1 q2
      subst q1
      unfold broadcastLoopT
      by_cases hm : matchIndex mask qx.1 qo.1 = true
      · have ht := hcur _ List.mem_cons_self qx q2 hm
        simp only [ht, hm, if_true]
        unfold broadcastStepInPlace at h
        simp only [hm, if_true, bind, Except.bind] at h
        rcases h1 : outIndex qx.1 qo.1 with e | k <;> rw [h1] at h
        · cases h
        simp only [guarded] at h ⊢
        rcases h2 : (if inPlace = true then torchOpInPlace op qx.2 qo.2 else torchOp op qx.2 qo.2 : Res (Blk R)) with e | blk <;>
          rw [h2] at h
        · cases h
        simp only at h ⊢
        rcases h3 : FM.emplaceHint out out.length k blk with e | r' <;> rw [h3] at h
        · cases h
        simp only at h ⊢
        refine broadcastLoopT_ok op inPlace mask a next l _ r'.1 r ps' ?_ hps' ?_ (fun hip => (List.pairwise_cons.1 (hpw hip)).2) h
        · intro j
          split
          · by_cases hj : i = j
            · subst hj
              have hlt := (List.getElem?_eq_some_iff.1 ht).1
              simp only [List.getElem?_set_self hlt, ← hk, ht, Option.map_some]
            · simp only [List.getElem?_set_ne hj, hk]
          · exact hk j
        · intro p hp x hx hmx
          have h0 := hcur p (List.mem_cons_of_mem _ hp) x hx hmx
          split
          · rename_i hip
            have hne : i ≠ p.2 := by
              intro e
              have := (List.pairwise_cons.1 (hpw hip)).1 p hp e qx q2 hm
              rw [← e, q2] at hx
              cases hx
              exact this hmx
            simp only [List.getElem?_set_ne hne, h0]
          · exact h0
      · obtain ⟨x, hx⟩ : ∃ x, t.blocks[i]? = some x := by
          have := hk i
          rw [q2] at this
          rcases hti : t.blocks[i]? with _ | x
          · rw [hti] at this; cases this
          · exact ⟨x, rfl⟩
        have hx1 : x.1 = qx.1 := by
          have := hk i
          rw [q2, hx] at this
          simpa using this
        simp only [hx, hx1, hm]
        unfold broadcastStepInPlace at h
        simp only [hm] at h
        exact broadcastLoopT_ok op inPlace mask a next l t out r ps' hk hps' (fun p hp => hcur p (List.mem_cons_of_mem _ hp))
          (fun hip => (List.pairwise_cons.1 (hpw hip)).2) h

theorem pairs_forall₂ (b a : FM (List Nat) (Blk R)) :
    List.Forall₂ (fun (p : (List Nat × Blk R) × Nat) (q : (List Nat × Blk R) × List Nat × Blk R) => q.1 = p.1 ∧ a[p.2]? = some q.2)
      (b.flatMap fun o => (List.range a.length).map fun i => (o, i)) (b.flatMap fun o => a.map fun t => (o, t)) := by
  induction b with
  | nil => exact .nil
  | cons o b ih =>
    rw [List.flatMap_cons, List.flatMap_cons]
    refine List.rel_append ?_ ih
    rw [List.forall₂_iff_get]
    refine ⟨by simp, ?_⟩
    intro i h1 h2
    simp at h2
    simp [h2]

theorem pairs_pairwise {b : FM (List Nat) (Blk R)} (hb : Sorted b) (n : Nat) (P : (List Nat × Blk R) → Nat → Prop)
    (hP : ∀ o ∈ b, ∀ o' ∈ b, ∀ i, P o i → P o' i → o.1 = o'.1) :
    (b.flatMap fun o => (List.range n).map fun i => (o, i)).Pairwise fun p q => p.2 = q.2 → P p.1 p.2 → P q.1 q.2 → False := by
  induction b with
  | nil => exact .nil
  | cons o b ih =>
    rw [sorted_cons] at hb
    rw [List.flatMap_cons, List.pairwise_append]
    refine ⟨?_, ih hb.2 (fun o ho o' ho' => hP o (by simp [ho]) o' (by simp [ho'])), ?_⟩
    · rw [List.pairwise_map]
      refine (List.pairwise_lt_range (n := n)).imp ?_
      intro i j hij e _ _
      exact absurd e (by simp only; omega)
    · intro p hp q hq e h1 h2
      simp only [List.mem_map, List.mem_flatMap] at hp hq
      obtain ⟨i, _, rfl⟩ := hp
      obtain ⟨o', ho', j, _, rfl⟩ := hq
      simp only at e h1 h2
      subst e
      have := hP o (by simp) o' (by simp [ho']) i h1 h2
      have hlt := hb.1 o' ho'
      rw [this] at hlt
      exact lt_irrefl _ hlt

/-- The operation on blocks that change as it goes is the operation on the blocks as they were. -/
theorem broadcastIn_done [AddCommMonoid G] [DecidableEq G] [Zero R] (op : R → R → R) (a b : BT G R)
    (ha : Conserving a.shape a.rule a.blocks) (hb : Conserving b.shape b.rule b.blocks)
    (hna : ∀ d ∈ a.shape, d ≠ []) (hnb : ∀ d ∈ b.shape, d ≠ []) (hf : Fits a.shape b.shape) (hw : NoWide a.shape b.shape)
    (hle : b.shape.length ≤ a.shape.length) : ∃ r, broadcastIn op a b = .done r ∧ broadcastInPlace op a b = .ok r ∧
      broadcastOp op a b = .ok r := by
  have hip := broadcastInPlace_eq op a b ha hb hna hnb hf hw hle
  unfold NoWide at hw
  unfold Fits at hf
  rw [if_pos hle] at hw
  rw [show b.shape.length - a.shape.length = 0 by omega, List.drop_zero] at hf
  have hg := good_of_fit hf hw (fun d hd => hna d (List.mem_of_mem_drop hd)) hnb
  obtain ⟨r, r1, r2, r3⟩ := shapes_good hg
  have hsh := (List.take_append_drop (a.shape.length - b.shape.length) a.shape).symm
  obtain ⟨bl, b1, b2, b3⟩ := broadcast_held op ha hb hsh r3
    (b.blocks.flatMap fun o => a.blocks.map fun t => (o, t)) (fun p => p.2) (fun p => p.1)
    (by
      intro l s
      constructor
      · rintro ⟨p, hp, rfl, rfl⟩
        simp only [List.mem_flatMap, List.mem_map] at hp
        obtain ⟨o, ho, t, ht, rfl⟩ := hp
        exact ⟨ht, ho⟩
      · rintro ⟨hl, hs⟩
        exact ⟨(s, l), by simp only [List.mem_flatMap, List.mem_map]; exact ⟨s, hs, l, hl, rfl⟩, rfl, rfl⟩)
    (broadcastStep op true (r.map Prod.fst))
    (by intro p _ acc _; rfl)
  have hop : broadcastOp op a b = .ok ⟨a.shape.take (a.shape.length - b.shape.length) ++ r.map Prod.snd, a.rule + b.rule, bl⟩ := by
    unfold broadcastOp shapeCompute
    simp only [hle, decide_true, if_true, r1, bind, Except.bind, b1]
    exact mkChecked_ok b2.block
  have hin := hip.trans hop
  refine ⟨_, ?_, hin, hop⟩
  unfold broadcastInPlace shapeCompute at hin
  simp only [hle, decide_true, if_true, r1, bind, Except.bind] at hin
  rcases hfold : (b.blocks.flatMap fun o => a.blocks.map fun t => (o, t)).foldlM
      (broadcastStepInPlace op (canInPlace true (r.map Prod.fst)) (r.map Prod.fst)) [] with e | bl' <;> rw [hfold] at hin
  · cases hin
  simp only [Except.ok.injEq] at hin
  unfold broadcastIn shapeCompute
  simp only [hle, decide_true, if_true, r1, bind, Except.bind, guarded]
  rw [broadcastLoopT_ok op _ _ a _ _ a [] bl' _ (fun _ => rfl) (pairs_forall₂ _ _) (fun _ _ _ h _ => h) ?_ hfold, hin]
  intro hcan
  refine (pairs_pairwise hb.sorted a.blocks.length
    (fun o i => ∃ x, a.blocks[i]? = some x ∧ matchIndex (r.map Prod.fst) x.1 o.1 = true) ?_).imp ?_
  · intro o ho o' ho' i ⟨x, hx, hm⟩ ⟨x', hx', hm'⟩
    rw [hx] at hx'
    cases hx'
    have hxm := List.mem_of_getElem? hx
    obtain ⟨k1, k2, x1, x2, ys, a1, a2, a3, a4, a5, _⟩ := bpair_facts ha hb hsh r3 hxm ho
    obtain ⟨k1', k2', x1', x2', ys', a1', a2', a3', a4', a5', _⟩ := bpair_facts ha hb hsh r3 hxm ho'
    have hk : k2 = k2' := by
      have l1 := (sections_length a2).1
      have l2 := (sections_length a2').1
      rw [a1] at a1'
      exact (List.append_inj a1' (by omega)).2
    subst hk
    exact inPlace_unique (r2 ▸ hcan) a4 a4' (r2 ▸ a5.1 hm) (r2 ▸ a5'.1 hm')
  · intro p q h e x hx h1 h2
    exact h e ⟨x, hx, h1⟩ ⟨x, e ▸ hx, h2⟩

/-- **C108**, `mul_` and `div_` (`pow_` is in `Props/PowInPlace`): for conserving tensors without empty dimensions and an argument of no larger rank, when
the section sizes fit (and no single wide section meets a single element) the call returns what the out of place operation
returns; when the numbers of sections do not fit it throws and leaves the tensor as it was.  Missing: numbers of sections that fit
with sizes that do not (`C108_mul_fails`). -/
theorem C108_broadcast_partial [AddCommMonoid G] [DecidableEq G] [Zero R] (op : R → R → R) (a b : BT G R)
    (ha : Conserving a.shape a.rule a.blocks) (hb : Conserving b.shape b.rule b.blocks)
    (hna : Populated a.shape) (hnb : Populated b.shape) (hle : b.shape.length ≤ a.shape.length)
    (hcase : (Fits a.shape b.shape ∧ NoWide a.shape b.shape) ∨ ¬ CountsFit a.shape b.shape) :
    Unharmed (broadcastIn op a b) a ∧ broadcastIn op a b ≠ .ub ∧
      (∀ r, broadcastIn op a b = .done r ↔ broadcastOp op a b = .ok r) ∧
      (¬ CountsFit a.shape b.shape → ∃ w, broadcastIn op a b = .threw .invalidArgument w) := by
  by_cases hcf : CountsFit a.shape b.shape
  · obtain ⟨hf, hw⟩ := hcase.resolve_right fun h => h hcf
    obtain ⟨r, r1, _, r2⟩ := broadcastIn_done op a b ha hb hna hnb hf hw hle
    refine ⟨unharmed_done r1, by rw [r1]; simp, ?_, fun h => absurd hcf h⟩
    intro r'
    rw [r1, r2]
    simp
  · have hrej : (((a.shape.drop (a.shape.length - b.shape.length)).zip b.shape).mapM fun p => shapeDim p.1 p.2) =
        Res.throw .invalidArgument := by
      refine shapes_reject (fun d hd => hna d (List.mem_of_mem_drop hd)) hnb (by simp; omega) ?_
      intro h
      apply hcf
      unfold CountsFit
      rw [show b.shape.length - a.shape.length = 0 by omega, List.drop_zero]
      exact h
    have e1 : broadcastIn op a b = .threw .invalidArgument (intact a) := by
      unfold broadcastIn shapeCompute
      simp only [hle, decide_true, if_true, bind, Except.bind, hrej, guarded, Res.throw]
    have e2 : broadcastOp op a b = Res.throw .invalidArgument := by
      unfold broadcastOp shapeCompute
      simp only [hle, decide_true, if_true, bind, Except.bind, hrej, Res.throw]
    refine ⟨unharmed_intact e1, by rw [e1]; simp, ?_, fun _ => ⟨_, e1⟩⟩
    intro r
    rw [e1, e2]
    simp [Res.throw]

/-- Two sections of size 2. -/
def failM : BT ℤ ℤ := ⟨[[(2, 0), (2, 0)]], 0, [([0], ⟨[2], fun _ => 3⟩), ([1], ⟨[2], fun _ => 3⟩)]⟩
/-- A section of size 2 and one of size 3. -/
def failN : BT ℤ ℤ := ⟨[[(2, 0), (3, 0)]], 0, [([0], ⟨[2], fun _ => 5⟩), ([1], ⟨[3], fun _ => 5⟩)]⟩

theorem failM_conserving : Conserving failM.shape failM.rule failM.blocks := by
  refine ⟨by simp [Sorted, failM]; decide, ?_⟩
  intro k b h
  simp only [failM, List.mem_cons, Prod.mk.injEq, List.not_mem_nil, or_false] at h
  rcases h with ⟨rfl, rfl⟩ | ⟨rfl, rfl⟩
  · exact ⟨[(2, 0)], rfl, rfl, rfl⟩
  · exact ⟨[(2, 0)], rfl, rfl, rfl⟩

theorem failN_conserving : Conserving failN.shape failN.rule failN.blocks := by
  refine ⟨by simp [Sorted, failN]; decide, ?_⟩
  intro k b h
  simp only [failN, List.mem_cons, Prod.mk.injEq, List.not_mem_nil, or_false] at h
  rcases h with ⟨rfl, rfl⟩ | ⟨rfl, rfl⟩
  · exact ⟨[(2, 0)], rfl, rfl, rfl⟩
  · exact ⟨[(3, 0)], rfl, rfl, rfl⟩

/-- The hypotheses of `C108_broadcast_partial`, on a product that returns and on one that throws. -/
example : Populated failM.shape ∧ Fits failM.shape failM.shape ∧ NoWide failM.shape failM.shape ∧ (∃ r, mulIn failM failM = .done r) ∧
    ¬ CountsFit failM.shape ([[(1, 0), (1, 0), (2, 0)]] : Shape ℤ) ∧
    mulIn failM ⟨[[(1, 0), (1, 0), (2, 0)]], 0, []⟩ = .threw .invalidArgument (intact failM) := by
  refine ⟨by simp [Populated, failM], .cons (Or.inl rfl) .nil, .cons (fun _ => by simp) .nil, ⟨_, rfl⟩, ?_, rfl⟩
  intro h
  cases h with
  | cons h _ => revert h; decide

/-- **C108** fails for `mul_` when the sections are as many but not as large: the first block is multiplied, the second throws. -/
theorem C108_mul_fails : ∃ a b : BT ℤ ℤ, Conserving a.shape a.rule a.blocks ∧ Conserving b.shape b.rule b.blocks ∧
    ¬ Unharmed (mulIn a b) a ∧
    ∃ w, mulIn a b = .threw .runtimeError w ∧ (∃ x, some ([0], x) ∈ w.cells ∧ x.f [0] = 15) ∧
      (∃ x, some ([1], x) ∈ w.cells ∧ x.f [0] = 3) ∧ entry a.shape a.blocks [0] = 3 ∧ entry a.shape a.blocks [2] = 3 := by
  obtain ⟨w, h, ⟨x, hx, hf⟩, y⟩ : ∃ w, mulIn failM failN = .threw .runtimeError w ∧ (∃ x, some ([0], x) ∈ w.cells ∧ x.f [0] = 15) ∧
      ∃ x, some ([1], x) ∈ w.cells ∧ x.f [0] = 3 :=
    ⟨_, rfl, ⟨_, List.mem_cons_self, rfl⟩, ⟨_, List.mem_cons_of_mem _ List.mem_cons_self, rfl⟩⟩
  refine ⟨failM, failN, failM_conserving, failN_conserving, ?_, w, h, ⟨x, hx, hf⟩, y, rfl, rfl⟩
  intro hu
  rw [(hu _ _ h).2.2] at hx
  simp [failM] at hx
  rw [hx] at hf
  exact absurd hf (by decide)

end BT
end QuantiT
