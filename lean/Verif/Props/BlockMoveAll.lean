import Verif.Props.BlockMoveEx
/-
C80 for every chain without empty sections, zero states included.
-/
namespace QuantiT
namespace BN
open Spec BT MP Finset
variable {G R : Type}

/-- What moves to the right do: all of them are done, or the center stops at a tensor that stores no block. -/
theorem movesRight_all [AddCommGroup G] [LinearOrder G] [CommSemiring R] [StarRing R] (fac : Blk R → Blk R × Blk R × Blk R)
    (hfac : SvdSizes fac) (hprod : SvdProduct fac) (horth : SvdOrtho fac) (hreal : SvdReal fac) :
    ∀ (k : Nat) (m : BMPS G R), Chained 3 m.sites → Filled m.sites → m.oc + k < m.sites.length →
    (∃ N k' m' A, k' < k ∧ m'.sites[m.oc + k']? = some A ∧ A.blocks = [] ∧ ∀ fuel, N ≤ fuel →
      movesRight fuel star fac k' m = some (.ok m') ∧ movesRight fuel star fac k m = some Res.ub) ∨
    ∃ N m', (∀ fuel, N ≤ fuel → movesRight fuel star fac k m = some (.ok m')) ∧ m'.oc = m.oc + k ∧ KeptAll m.sites m'.sites ∧
      (∀ j A, m'.sites[j]? = some A → m.oc ≤ j → j < m.oc + k → LeftOrth (denseOf A)) ∧
      (∀ j, j < m.oc ∨ m.oc + k < j → m'.sites[j]? = m.sites[j]?) ∧ Filled m'.sites
  | 0, m, hch, hf, hk => .inr ⟨0, m, fun _ _ => rfl, rfl, ⟨rfl, hch, ⟨rfl, rfl, rfl, rfl⟩, SameState.refl _⟩,
      fun j A _ h1 h2 => by omega, fun _ _ => rfl, hf⟩
  | k + 1, m, hch, hf, hk => by
    have hA : m.sites[m.oc]? = some (m.sites[m.oc]'(by omega)) := List.getElem?_eq_getElem _
    generalize m.sites[m.oc]'(by omega) = A at hA
    have hAz := hf.pos (List.mem_of_getElem? hA)
    by_cases hAb : A.blocks = []
    · refine .inl ⟨0, 0, m, A, by omega, hA, hAb, fun fuel _ => ⟨rfl, ?_⟩⟩
      obtain ⟨l, s, r, dA⟩ := List.length_eq_three.1 (hch.1 _ (List.mem_of_getElem? hA)).2
      have f2 : svdSplit fac A 2 = Res.ub := C79_empty_fails fac hfac hprod horth A [l, s] [r] dA (by simp) (by simp) hAz hAb
      have hB : m.sites[m.oc + 1]? = some (m.sites[m.oc + 1]'(by omega)) := List.getElem?_eq_getElem _
      rw [movesRight, moveRight, hA, hB]
      simp only [orUb, andThen_ok, f2]
      rfl
    · obtain ⟨N1, m1, e1, o1, k1, q1, u1, f1⟩ := moveRight_all fac hfac hprod horth hreal m hch (by omega) hA hAb hAz
      rcases movesRight_all fac hfac hprod horth hreal k m1 k1.chained (f1 hf) (by rw [k1.len]; omega) with
        ⟨N2, k', m', A', h1, h2, h3, h4⟩ | ⟨N2, m2, e2, o2, k2, q2, u2, f2⟩
      · refine .inl ⟨max N1 N2, k' + 1, m', A', by omega, by rw [← h2, o1]; congr 1; omega, h3, fun fuel hf => ?_⟩
        obtain ⟨g1, g2⟩ := h4 fuel (by omega)
        rw [movesRight, movesRight, e1 fuel (by omega), andThen_ok, andThen_ok]
        exact ⟨g1, g2⟩
      · refine .inr ⟨max N1 N2, m2, ?_, by omega, k1.trans k2, ?_, ?_, f2⟩
        · intro fuel hf
          rw [movesRight, e1 fuel (by omega), andThen_ok, e2 fuel (by omega)]
        · intro j A hA h1 h2
          by_cases hj : j = m.oc
          · subst hj
            rw [u2 _ (by omega)] at hA
            exact q1 A hA
          · exact q2 j A hA (by omega) (by omega)
        · intro j hj
          rw [u2 j (by omega), u1 j (by omega) (by omega)]

/-- The same of moves to the left. -/
theorem movesLeft_all [AddCommGroup G] [LinearOrder G] [CommSemiring R] [StarRing R] (fac : Blk R → Blk R × Blk R × Blk R)
    (hfac : SvdSizes fac) (hprod : SvdProduct fac) (horth : SvdOrtho fac) :
    ∀ (k : Nat) (m : BMPS G R), Chained 3 m.sites → Filled m.sites → m.oc < m.sites.length → k ≤ m.oc →
    (∃ N k' m' A, k' < k ∧ m'.sites[m.oc - k']? = some A ∧ m'.oc = m.oc - k' ∧ A.blocks = [] ∧ ∀ fuel, N ≤ fuel →
      movesLeft fuel star fac k' m = some (.ok m') ∧ movesLeft fuel star fac k m = some Res.ub) ∨
    ∃ N m', (∀ fuel, N ≤ fuel → movesLeft fuel star fac k m = some (.ok m')) ∧ m'.oc = m.oc - k ∧ KeptAll m.sites m'.sites ∧
      (∀ j A, m'.sites[j]? = some A → m.oc - k < j → j ≤ m.oc → RightOrth (denseOf A)) ∧
      (∀ j, j < m.oc - k ∨ m.oc < j → m'.sites[j]? = m.sites[j]?) ∧ Filled m'.sites
  | 0, m, hch, hf, _, _ => .inr ⟨0, m, fun _ _ => rfl, rfl, ⟨rfl, hch, ⟨rfl, rfl, rfl, rfl⟩, SameState.refl _⟩,
      fun j A _ h1 h2 => by omega, fun _ _ => rfl, hf⟩
  | k + 1, m, hch, hf, hoc, hk => by
    have hA : m.sites[m.oc]? = some (m.sites[m.oc]'(by omega)) := List.getElem?_eq_getElem _
    generalize m.sites[m.oc]'(by omega) = A at hA
    have hAz := hf.pos (List.mem_of_getElem? hA)
    by_cases hAb : A.blocks = []
    · refine .inl ⟨0, 0, m, A, by omega, hA, rfl, hAb, fun fuel _ => ⟨rfl, ?_⟩⟩
      obtain ⟨l, s, r, dA⟩ := List.length_eq_three.1 (hch.1 _ (List.mem_of_getElem? hA)).2
      have f2 : svdSplit fac A 1 = Res.ub := C79_empty_fails fac hfac hprod horth A [l] [s, r] dA (by simp) (by simp) hAz hAb
      have hB : m.sites[m.oc - 1]? = some (m.sites[m.oc - 1]'(by omega)) := List.getElem?_eq_getElem _
      rw [movesLeft, moveLeft, hA, hB]
      simp only [orUb, andThen_ok, f2]
      rfl
    · obtain ⟨N1, m1, e1, o1, k1, q1, u1, f1⟩ := moveLeft_all fac hfac hprod horth m hch (by omega) hA hAb hAz
      rcases movesLeft_all fac hfac hprod horth k m1 k1.chained (f1 hf) (by rw [k1.len]; omega) (by omega) with
        ⟨N2, k', m', A', h1, h2, ho, h3, h4⟩ | ⟨N2, m2, e2, o2, k2, q2, u2, f2⟩
      · refine .inl ⟨max N1 N2, k' + 1, m', A', by omega, by rw [← h2, o1]; congr 1; omega, by omega, h3, fun fuel hf => ?_⟩
        obtain ⟨g1, g2⟩ := h4 fuel (by omega)
        rw [movesLeft, movesLeft, e1 fuel (by omega), andThen_ok, andThen_ok]
        exact ⟨g1, g2⟩
      · refine .inr ⟨max N1 N2, m2, ?_, by omega, k1.trans k2, ?_, ?_, f2⟩
        · intro fuel hf
          rw [movesLeft, e1 fuel (by omega), andThen_ok, e2 fuel (by omega)]
        · intro j A hA h1 h2
          by_cases hj : j = m.oc
          · subst hj
            rw [u2 _ (by omega)] at hA
            exact q1 A hA
          · exact q2 j A hA (by omega) (by omega)
        · intro j hj
          rw [u2 j (by omega), u1 j (by omega) (by omega)]

/-- **C80.**  `bMPS::move_oc(i)` on any chain of block tensors whose dimensions have sections and no empty ones, zero states
included, from any center to any site.  Either it returns as in C80, or its behaviour is undefined, and then the state is zero
and the center has come, on its way to `i`, to a tensor that stores no block. -/
theorem C80_outcomes [AddCommGroup G] [LinearOrder G] [CommSemiring R] [StarRing R] (fac : Blk R → Blk R × Blk R × Blk R)
    (hfac : SvdSizes fac) (hprod : SvdProduct fac) (horth : SvdOrtho fac) (hreal : SvdReal fac) (m : BMPS G R)
    (hch : Chained 3 m.sites) (hne : ∀ A ∈ m.sites, ∀ d ∈ A.shape, d ≠ [] ∧ ∀ x ∈ d, 0 < x.1) (hoc : m.oc < m.sites.length) (i : Nat)
    (hi : i < m.sites.length) :
    (¬ NonZero (m.sites.map denseOf) ∧ ∃ N j m1 A, ((m.oc ≤ j ∧ j < i) ∨ (i < j ∧ j ≤ m.oc)) ∧
      m1.sites[j]? = some A ∧ A.blocks = [] ∧ ∀ fuel, N ≤ fuel → moveOcB fuel star fac m j = some (.ok m1) ∧
      moveOcB fuel star fac m i = some Res.ub) ∨
    ∃ N m', (∀ fuel, N ≤ fuel → moveOcB fuel star fac m i = some (.ok m')) ∧
      m'.oc = i ∧ m'.sites.length = m.sites.length ∧ Chained 3 m'.sites ∧ SameOuter m.sites m'.sites ∧
      SameState (m.sites.map denseOf) (m'.sites.map denseOf) ∧
      (∀ j A, m'.sites[j]? = some A → m.oc ≤ j → j < i → LeftOrth (denseOf A)) ∧
      (∀ j A, m'.sites[j]? = some A → i < j → j ≤ m.oc → RightOrth (denseOf A)) ∧
      (∀ j, (j < m.oc ∧ j < i) ∨ (m.oc < j ∧ i < j) → m'.sites[j]? = m.sites[j]?) ∧
      (Canonical (m.sites.map denseOf) m.oc → Canonical (m'.sites.map denseOf) i) ∧
      (∀ A ∈ m'.sites, ∀ d ∈ A.shape, d ≠ [] ∧ ∀ x ∈ d, 0 < x.1) := by
  have hzero : ∀ N, (∀ fuel, N ≤ fuel → moveOcB fuel star fac m i = some Res.ub) → ¬ NonZero (m.sites.map denseOf) := by
    intro N h hn
    obtain ⟨N', m', h', -⟩ := C80_move_oc_partial fac hfac hprod horth hreal m hch hn hoc i hi
    have h1 := h (max N N') (le_max_left _ _)
    rw [h' (max N N') (le_max_right _ _)] at h1
    cases h1
  have unf : ∀ fuel (j : Nat), j < m.sites.length → moveOcB fuel star fac m j =
      andThen (movesLeft fuel star fac (m.oc - j) m) fun m => movesRight fuel star fac (j - m.oc) m := by
    intro fuel j hj
    unfold moveOcB
    rw [if_neg (by omega), Int.toNat_natCast]
  rcases movesLeft_all fac hfac hprod horth (m.oc - i) m hch hne hoc (by omega) with
    ⟨N, k, m1, A, h1, h2, ho, h3, h4⟩ | ⟨N1, m1, e1, o1, k1, q1, u1, f1⟩
  · have hub : ∀ fuel, N ≤ fuel → moveOcB fuel star fac m i = some Res.ub := by
      intro fuel hf
      rw [unf fuel i hi, (h4 fuel hf).2]
      rfl
    refine .inl ⟨hzero N hub, N, m.oc - k, m1, A, .inr ⟨by omega, by omega⟩, h2, h3, fun fuel hf => ⟨?_, hub fuel hf⟩⟩
    rw [unf fuel _ (by omega), show m.oc - (m.oc - k) = k by omega, (h4 fuel hf).1, andThen_ok, ho, Nat.sub_self]
    rfl
  · rcases movesRight_all fac hfac hprod horth hreal (i - m1.oc) m1 k1.chained f1 (by rw [k1.len]; omega) with
      ⟨N, k, m2, A, h1, h2, h3, h4⟩ | ⟨N2, m2, e2, o2, k2, q2, u2, f2⟩
    · have hlt : m.oc - i = 0 := by omega
      have hm : m1 = m := by
        have := e1 N1 (le_refl _)
        rw [hlt] at this
        exact (Except.ok.inj (Option.some.inj this)).symm
      subst hm
      have hub : ∀ fuel, N ≤ fuel → moveOcB fuel star fac m1 i = some Res.ub := by
        intro fuel hf
        rw [unf fuel i hi, hlt, movesLeft, andThen_ok, (h4 fuel hf).2]
      refine .inl ⟨hzero N hub, N, m1.oc + k, m2, A, .inl ⟨by omega, by omega⟩, h2, h3, fun fuel hf => ⟨?_, hub fuel hf⟩⟩
      rw [unf fuel _ (by omega), show m1.oc - (m1.oc + k) = 0 by omega, movesLeft, andThen_ok, show m1.oc + k - m1.oc = k by omega,
        (h4 fuel hf).1]
    · have hL : ∀ j A, m2.sites[j]? = some A → m.oc ≤ j → j < i → LeftOrth (denseOf A) :=
        fun j A hA h1 h2 => q2 j A hA (by omega) (by omega)
      have hR : ∀ j A, m2.sites[j]? = some A → i < j → j ≤ m.oc → RightOrth (denseOf A) := by
        intro j A hA h1 h2
        rw [u2 j (by omega)] at hA
        exact q1 j A hA (by omega) h2
      have hU : ∀ j, (j < m.oc ∧ j < i) ∨ (m.oc < j ∧ i < j) → m2.sites[j]? = m.sites[j]? := by
        intro j hj
        rw [u2 j (by omega), u1 j (by omega)]
      have k := k1.trans k2
      refine .inr ⟨max N1 N2, m2, ?_, by omega, k.len, k.chained, k.outer, k.same, hL, hR, hU, ?_, f2⟩
      · intro fuel hf
        rw [unf fuel i hi, e1 fuel (by omega), andThen_ok]
        exact e2 fuel (by omega)
      · rintro ⟨c1, c2⟩
        refine ⟨fun j A hA hj => ?_, fun j A hA hj => ?_⟩
        · rw [List.getElem?_map] at hA
          obtain ⟨A', h', rfl⟩ := Option.map_eq_some_iff.1 hA
          by_cases h : m.oc ≤ j
          · exact hL j A' h' h hj
          · rw [hU j (by omega)] at h'
            exact c1 j _ (by simp [h']) (by omega)
        · rw [List.getElem?_map] at hA
          obtain ⟨A', h', rfl⟩ := Option.map_eq_some_iff.1 hA
          by_cases h : j ≤ m.oc
          · exact hR j A' h' hj h
          · rw [hU j (by omega)] at h'
            exact c2 j _ (by simp [h']) (by omega)

/-- A tensor that stores blocks of zeros. -/
def exBZ : BT Int ℂ := ⟨[[(1, 1), (1, -1)], [(1, 1), (1, -1)], [(1, 0)]], 0, [([0, 1, 0], coefC 3 0), ([1, 0, 0], coefC 3 0)]⟩

/-- The premises of `C80_outcomes` are met by a zero state that stores blocks; its center is moved. -/
example : ∃ fac : Blk ℂ → Blk ℂ × Blk ℂ × Blk ℂ, ∃ N m', (∀ fuel, N ≤ fuel → moveOcB fuel star fac ⟨[exAC, exBZ], 0⟩ 1 = some (.ok m')) ∧
    m'.oc = 1 ∧ SameState ([exAC, exBZ].map denseOf) (m'.sites.map denseOf) := by
  obtain ⟨fac, h1, h2, h3, h4⟩ := exFac
  have hs : Sound exBZ := sound_of (by unfold Sorted; simp [exBZ]; decide) (by
    intro kb h; simp only [exBZ, List.mem_cons, List.not_mem_nil, or_false] at h
    rcases h with rfl | rfl <;> exact ⟨_, rfl, by decide, rfl⟩) (by unfold exBZ; simp)
  have hch : Chained 3 [exAC, exBZ] := chained_two exAC_sound hs rfl rfl (.cons ⟨rfl, by decide⟩ (.cons ⟨rfl, by decide⟩ .nil))
  rcases C80_outcomes fac h1 h2 h3 h4 ⟨[exAC, exBZ], 0⟩ hch
      (by intro A hA; simp at hA; rcases hA with rfl | rfl <;> decide) (by simp) 1 (by simp) with
    ⟨-, N, j, m1, A, hj, hA, hb, h⟩ | ⟨N, m', e1, e2, _, _, _, e3, _⟩
  · exfalso
    have hj : j = 0 := by simp at hj; omega
    subst hj
    have := (h N (le_refl _)).1
    cases this
    cases hA
    simp [exAC] at hb
  · exact ⟨fac, N, m', e1, e2, e3⟩

end BN
end QuantiT
