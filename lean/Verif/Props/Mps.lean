import Verif.Model.Mps
import Verif.Spec.Mps
import Verif.Lemmas.Gather
import Mathlib.Algebra.BigOperators.Ring.Finset
import Mathlib.Algebra.Star.BigOperators
import Mathlib.Algebra.Star.Basic
/-
Chains: construction (C44) and moving the orthogonality center (C45).
-/
namespace QuantiT
namespace MP
open Spec Finset
variable {R G : Type}

/-! ## C44 -/

theorem ranksLoop_eq (rank : Nat) (hrank : 3 ≤ rank) : ∀ (sizes : List (List Nat)) (prev : Nat),
    (∀ s ∈ sizes, 3 ≤ s.length) →
    ∃ b, ranksLoop rank prev sizes = .ok b ∧
      (b = true ↔ Linked rank sizes ∧ ∀ s, sizes[0]? = some s → s[0]? = some prev) := by
  intro sizes
  induction sizes with
  | nil => intro prev _; exact ⟨true, rfl, by simp [Linked]⟩
  | cons ds rest ih =>
    intro prev hr
    have h3 : 3 ≤ ds.length := hr ds (by simp)
    have h2 : ds[2]? = some (ds[2]'(by omega)) := List.getElem?_eq_getElem (by omega)
    have h0 : ds[0]? = some (ds[0]'(by omega)) := List.getElem?_eq_getElem (by omega)
    unfold ranksLoop
    rw [h2, h0]
    simp only
    by_cases hl : ds.length = rank
    · rw [if_pos hl]
      by_cases hp : prev = ds[0]'(by omega)
      · rw [if_pos hp]
        obtain ⟨b, hb, hiff⟩ := ih (ds[2]'(by omega)) (fun s hs => hr s (by simp [hs]))
        refine ⟨b, hb, ?_⟩
        rw [hiff]
        constructor
        · rintro ⟨⟨l1, l2⟩, hz⟩
          refine ⟨⟨?_, ?_⟩, ?_⟩
          · intro s hs
            rcases List.mem_cons.1 hs with rfl | hs
            · exact hl
            · exact l1 s hs
          · intro i s s' hi hi'
            cases i with
            | zero =>
              simp only [List.getElem?_cons_zero, Option.some.injEq] at hi
              subst hi
              simp only [Nat.zero_add, List.getElem?_cons_succ] at hi'
              rw [hz s' hi', h2]
            | succ i =>
              simp only [List.getElem?_cons_succ] at hi hi'
              exact l2 i s s' hi hi'
          · intro s hs
            simp only [List.getElem?_cons_zero, Option.some.injEq] at hs
            subst hs
            rw [h0, hp]
        · rintro ⟨⟨l1, l2⟩, hz⟩
          refine ⟨⟨fun s hs => l1 s (by simp [hs]), fun i s s' hi hi' => l2 (i + 1) s s' ?_ ?_⟩, ?_⟩
          · simpa using hi
          · simpa using hi'
          · intro s hs
            have := l2 0 ds s (by simp) (by simpa using hs)
            rw [← this, h2]
      · rw [if_neg hp]
        refine ⟨false, rfl, ?_⟩
        simp only [Bool.false_eq_true, List.getElem?_cons_zero, Option.some.injEq, forall_eq', h0, false_iff, not_and]
        intro _ h; exact hp h.symm
    · rw [if_neg hl]
      refine ⟨false, rfl, ?_⟩
      simp only [Bool.false_eq_true, List.getElem?_cons_zero, Option.some.injEq, forall_eq', h0, false_iff, not_and]
      intro h; exact absurd (h.1 ds (by simp)) hl

theorem checkRanks_eq (rank : Nat) (hrank : 3 ≤ rank) (sizes : List (List Nat)) (hne : sizes ≠ [])
    (hr : ∀ s ∈ sizes, 3 ≤ s.length) :
    ∃ b, checkRanks rank sizes = .ok b ∧ (b = true ↔ Linked rank sizes) := by
  cases sizes with
  | nil => exact absurd rfl hne
  | cons ds rest =>
    have h3 : 3 ≤ ds.length := hr ds (by simp)
    have h0 : ds[0]? = some (ds[0]'(by omega)) := List.getElem?_eq_getElem (by omega)
    obtain ⟨b, hb, hiff⟩ := ranksLoop_eq rank hrank (ds :: rest) (ds[0]'(by omega)) hr
    refine ⟨b, ?_, ?_⟩
    · unfold checkRanks; simp only [h0]; exact hb
    · rw [hiff]; simp [h0]

/-- **C44** (partial).  Building an MPS from tensors and a position succeeds, with that position as the
orthogonality center, exactly when all the tensors have rank 3, neighbouring bonds agree and the position is inside
the chain; otherwise it throws `invalid_argument`.  Missing: an empty list and tensors of rank less than three,
for which the constructor has undefined behaviour (`C44_empty_fails`, `C44_rank_fails`). -/
theorem C44_mps_partial (sizes : List (List Nat)) (oc : Nat) (hne : sizes ≠ []) (hr : ∀ s ∈ sizes, 3 ≤ s.length) :
    (Linked 3 sizes ∧ oc < sizes.length → mkMps sizes oc = .ok oc) ∧
    (¬ (Linked 3 sizes ∧ oc < sizes.length) → mkMps sizes oc = Res.throw .invalidArgument) := by
  obtain ⟨b, hb, hiff⟩ := checkRanks_eq 3 (le_refl _) sizes hne hr
  have hlen : 0 < sizes.length := List.length_pos_iff.2 hne
  unfold mkMps
  rw [hb]
  simp only [bind, Except.bind]
  constructor
  · rintro ⟨hl, ho⟩
    rw [if_neg (by simpa using hiff.2 hl), if_neg (by omega)]
  · intro h
    by_cases hl : Linked 3 sizes
    · rw [if_neg (by simpa using hiff.2 hl), if_pos]
      have : ¬ oc < sizes.length := fun ho => h ⟨hl, ho⟩
      omega
    · rw [if_pos]
      intro hb'; exact hl (hiff.1 hb')

/-- **C44** (partial), for an MPO: rank 4 and equal neighbouring bonds.  Missing: as in `C44_mps_partial`. -/
theorem C44_mpo_partial (sizes : List (List Nat)) (hne : sizes ≠ []) (hr : ∀ s ∈ sizes, 3 ≤ s.length) :
    (Linked 4 sizes → mkMpo sizes = .ok ()) ∧ (¬ Linked 4 sizes → mkMpo sizes = Res.throw .invalidArgument) := by
  obtain ⟨b, hb, hiff⟩ := checkRanks_eq 4 (by omega) sizes hne hr
  unfold mkMpo
  rw [hb]
  simp only [bind, Except.bind]
  refine ⟨fun hl => if_neg (by simpa using hiff.2 hl), fun hl => if_pos fun hb' => hl (hiff.1 hb')⟩

/-- **C44**, filling constructors: for at least two copies, `MPS(n, tensor, oc)` is accepted exactly when the chain
of copies is well linked and the center is inside; `MPO(n, tensor)` likewise.  No undefined behaviour here. -/
theorem C44_fill (n : Nat) (hn : 2 ≤ n) (s : List Nat) (oc : Nat) :
    ((Linked 3 (List.replicate n s) ∧ oc < n → mkMpsFill n s oc = .ok oc) ∧
      (¬ (Linked 3 (List.replicate n s) ∧ oc < n) → mkMpsFill n s oc = Res.throw .invalidArgument)) ∧
    ((Linked 4 (List.replicate n s) → mkMpoFill s = .ok ()) ∧
      (¬ Linked 4 (List.replicate n s) → mkMpoFill s = Res.throw .invalidArgument)) := by
  have key : ∀ rank, Linked rank (List.replicate n s) ↔ s.length = rank ∧ s[0]? = s[2]? := by
    intro rank
    constructor
    · rintro ⟨h1, h2⟩
      refine ⟨h1 s ?_, ?_⟩
      · rw [List.mem_replicate]; exact ⟨by omega, rfl⟩
      · exact (h2 0 s s (by rw [List.getElem?_replicate]; simp; omega)
          (by rw [List.getElem?_replicate]; simp; omega)).symm
    · rintro ⟨h1, h2⟩
      refine ⟨fun s' hs' => ?_, fun i a b ha hb => ?_⟩
      · rw [List.eq_of_mem_replicate hs']; exact h1
      · rw [List.eq_of_mem_replicate (List.mem_of_getElem? ha),
          List.eq_of_mem_replicate (List.mem_of_getElem? hb)]; exact h2.symm
  rw [key 3, key 4]
  unfold mkMpsFill mkMpoFill
  refine ⟨⟨?_, ?_⟩, ?_, ?_⟩
  · rintro ⟨h, ho⟩
    simp only [h, and_self, decide_true]
    rw [if_neg (by omega), if_neg (by simp)]
  · intro h
    by_cases ho : oc < n
    · have h' : ¬ (s.length = 3 ∧ s[0]? = s[2]?) := fun h' => h ⟨h', ho⟩
      rw [if_neg (by omega)]
      simp only [h', decide_false]
      rfl
    · rw [if_pos (by omega)]
  · intro h; rw [if_pos h]
  · intro h; rw [if_neg h]

/-- **C44** fails on an empty list of tensors: the constructors read the first tensor. -/
theorem C44_empty_fails (oc : Nat) : mkMps [] oc = Res.ub ∧ mkMpo [] = Res.ub := ⟨rfl, rfl⟩

/-- **C44** fails for tensors with fewer than three dimensions: their third size is read before the rank is
compared. -/
theorem C44_rank_fails (l m : Nat) : mkMps [[l, m]] 0 = Res.ub ∧ mkMpo [[l, m]] = Res.ub := ⟨rfl, rfl⟩

example : mkMps [[1, 2, 3], [3, 2, 6], [6, 2, 4]] 2 = .ok 2 :=
  ((C44_mps_partial _ 2 (by simp) (by simp)).1
    ⟨⟨by simp, fun i s s' h h' => by
      match i with
      | 0 => simp at h h'; subst h h'; rfl
      | 1 => simp at h h'; subst h h'; rfl
      | i + 2 => simp at h'⟩, by simp⟩)
example : mkMps [[1, 2, 3], [2, 2, 6]] 0 = Res.throw .invalidArgument := rfl

theorem zip_all [AddCommMonoid G] [DecidableEq G] : ∀ (a b : List (Nat × G)), a.length = b.length →
    ((a.zip b).all (fun ss => decide (ss.1.2 + ss.2.2 = 0)) = true ↔
      List.Forall₂ (fun (x y : Nat × G) => x.2 + y.2 = 0) a b)
  | [], [], _ => by simp
  | a :: as, b :: bs, h => by
    have := zip_all as bs (by simpa using h)
    simp only [List.zip_cons_cons, List.all_cons, Bool.and_eq_true, decide_eq_true_eq, List.forall₂_cons, this]
  | [], _ :: _, h => by simp at h
  | _ :: _, [], h => by simp at h

theorem productCompat_eq [AddCommMonoid G] [DecidableEq G] (a b : Shape G) (ha : 2 < a.length) (hb : 0 < b.length) :
    ∃ r, productCompat a b 2 0 = .ok r ∧
      (r = true ↔ List.Forall₂ (fun (x y : Nat × G) => x.2 + y.2 = 0) (a.getD 2 []) (b.getD 0 [])) := by
  have h2 : a[2]? = some (a[2]) := List.getElem?_eq_getElem ha
  have h0 : b[0]? = some (b[0]) := List.getElem?_eq_getElem hb
  have g2 : a.getD 2 [] = a[2] := by rw [List.getD_eq_getElem?_getD, h2]; rfl
  have g0 : b.getD 0 [] = b[0] := by rw [List.getD_eq_getElem?_getD, h0]; rfl
  unfold productCompat
  rw [h2, h0, g2, g0]
  simp only
  by_cases hl : (a[2]).length = (b[0]).length
  · rw [if_neg (by simpa using hl)]
    exact ⟨_, rfl, zip_all _ _ hl⟩
  · rw [if_pos hl]
    exact ⟨false, rfl, by simp only [Bool.false_eq_true, false_iff]; exact fun h => hl h.length_eq⟩

theorem bRanksLoop_eq [AddCommMonoid G] [DecidableEq G] (rank : Nat) (hrank : 3 ≤ rank) :
    ∀ (rest : List (Shape G)) (it : Shape G), it.length = rank →
    ∃ b, bRanksLoop rank it rest = .ok b ∧ (b = true ↔ ChargeLinked rank (it :: rest)) := by
  intro rest
  induction rest with
  | nil =>
    intro it hl
    exact ⟨true, rfl, by simp [ChargeLinked, hl]⟩
  | cons next rest ih =>
    intro it hl
    unfold bRanksLoop
    by_cases hn : next.length = rank
    · rw [if_pos hn]
      obtain ⟨r, hr, hiff⟩ := productCompat_eq it next (by omega) (by omega)
      rw [hr]
      simp only [bind, Except.bind]
      cases r with
      | true =>
        obtain ⟨b, hb, hbi⟩ := ih next hn
        refine ⟨b, by rw [if_pos rfl]; exact hb, ?_⟩
        rw [hbi]
        constructor
        · rintro ⟨h1, h2⟩
          refine ⟨fun s hs => ?_, fun i s s' hi hi' => ?_⟩
          · rcases List.mem_cons.1 hs with rfl | hs
            · exact hl
            · exact h1 s hs
          · cases i with
            | zero =>
              simp at hi hi'; subst hi hi'
              exact hiff.1 rfl
            | succ i => exact h2 i s s' (by simpa using hi) (by simpa using hi')
        · rintro ⟨h1, h2⟩
          exact ⟨fun s hs => h1 s (List.mem_cons_of_mem _ hs), fun i s s' hi hi' => h2 (i + 1) s s' (by simpa using hi) (by simpa using hi')⟩
      | false =>
        refine ⟨false, by rw [if_neg (by simp)], ?_⟩
        simp only [Bool.false_eq_true, false_iff]
        intro h
        have := hiff.2 (h.2 0 it next (by simp) (by simp))
        cases this
    · rw [if_neg hn]
      refine ⟨false, rfl, ?_⟩
      simp only [Bool.false_eq_true, false_iff]
      intro h; exact hn (h.1 next (by simp))

theorem bCheckRanks_eq [AddCommMonoid G] [DecidableEq G] (rank : Nat) (hrank : 3 ≤ rank) (chain : List (Shape G))
    (hne : chain ≠ []) : ∃ b, bCheckRanks rank chain = .ok b ∧ (b = true ↔ ChargeLinked rank chain) := by
  cases chain with
  | nil => exact absurd rfl hne
  | cons it rest =>
    unfold bCheckRanks
    dsimp only
    by_cases hl : it.length = rank
    · rw [if_pos hl]; exact bRanksLoop_eq rank hrank rest it hl
    · rw [if_neg hl]
      refine ⟨false, rfl, ?_⟩
      simp only [Bool.false_eq_true, false_iff]
      intro h; exact hl (h.1 it (by simp))

/-- **C44** (partial), block chains: the constructors of `bMPS` and `bMPO` accept exactly the chains of the right
rank whose neighbouring bonds have the same number of sections with opposite charges, and throw
`invalid_argument` on the others.  Missing: equality of the section sizes, which is not checked
(`C44_block_sizes_fails`), and empty chains. -/
theorem C44_block_partial [AddCommMonoid G] [DecidableEq G] (chain : List (Shape G)) (oc : Nat) (hne : chain ≠ []) :
    ((ChargeLinked 3 chain ∧ oc < chain.length → mkBMps chain oc = .ok oc) ∧
      (¬ (ChargeLinked 3 chain ∧ oc < chain.length) → mkBMps chain oc = Res.throw .invalidArgument)) ∧
    ((ChargeLinked 4 chain → mkBMpo chain = .ok ()) ∧
      (¬ ChargeLinked 4 chain → mkBMpo chain = Res.throw .invalidArgument)) := by
  have hlen : 0 < chain.length := List.length_pos_iff.2 hne
  constructor
  · obtain ⟨b, hb, hiff⟩ := bCheckRanks_eq 3 (le_refl _) chain hne
    unfold mkBMps
    rw [hb]
    simp only [bind, Except.bind]
    constructor
    · rintro ⟨hl, ho⟩
      rw [if_neg (by simpa using hiff.2 hl), if_neg (by omega)]
    · intro h
      by_cases hl : ChargeLinked 3 chain
      · rw [if_neg (by simpa using hiff.2 hl), if_pos]
        have : ¬ oc < chain.length := fun ho => h ⟨hl, ho⟩
        omega
      · rw [if_pos]
        intro hb'; exact hl (hiff.1 hb')
  · obtain ⟨b, hb, hiff⟩ := bCheckRanks_eq 4 (by omega) chain hne
    unfold mkBMpo
    rw [hb]
    simp only [bind, Except.bind]
    exact ⟨fun hl => if_neg (by simpa using hiff.2 hl), fun hl => if_pos fun hb' => hl (hiff.1 hb')⟩

/-- **C44** fails for block chains: a bond of size 1 next to a bond of size 2 is accepted when the charges are
opposite. -/
theorem C44_block_sizes_fails :
    mkBMps [[[(1, (0 : ℤ))], [(2, 0)], [(1, 0)]], [[(2, 0)], [(2, 0)], [(1, 0)]]] 0 = .ok 0 := rfl

/-- **C44** fails on an empty block chain. -/
theorem C44_block_empty_fails (oc : Nat) : mkBMps (G := ℤ) [] oc = Res.ub ∧ mkBMpo (G := ℤ) [] = Res.ub := ⟨rfl, rfl⟩

example : mkBMps [[[(1, (0 : ℤ))], [(1, 0), (1, 1)], [(1, 0), (1, -1)]], [[(1, 0), (1, 1)], [(1, 0), (1, 1)], [(1, -2)]]] 1
    = .ok 1 := rfl
example : mkMpsFill 4 [3, 2, 3] 3 = .ok 3 :=
  (C44_fill 4 (by omega) [3, 2, 3] 3).1.1 ⟨⟨by simp, fun i s s' h h' => by
    rw [List.eq_of_mem_replicate (List.mem_of_getElem? h), List.eq_of_mem_replicate (List.mem_of_getElem? h')]; rfl⟩,
    by omega⟩

end MP
end QuantiT
