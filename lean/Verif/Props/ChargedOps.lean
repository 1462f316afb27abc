import Verif.Model.ChargedOps
import Verif.Lemmas.BlockModels
import Verif.Lemmas.BlockEdges
import Verif.Props.Identity
/-
C107: operators with conserved quantities are the dense operators.
-/
set_option linter.unusedSectionVars false
namespace QuantiT
open Spec BT BN HM MP
variable {G K : Type} [AddCommGroup G] [DecidableEq G] [Field K] [LinearOrder K] [IsStrictOrderedRing K]

/-- The block tensor `T` is the matrix `W`: it has the given dimensions and selection rule, stores only blocks that the
rule allows, and every entry is that of `W`. -/
structure IsMatrix (d0 d1 : Dim G) (q : G) (W : Blk K) (T : BT G K) : Prop where
  shape : T.shape = [d0, d1]
  rule : T.rule = q
  conserving : Conserving T.shape T.rule T.blocks
  entries : ∀ r c, r < dimSize d0 → c < dimSize d1 → entry T.shape T.blocks [r, c] = W.f [r, c]

theorem chargedOp_ok (shape : BT G K) (d0 d1 : Dim G) (hs : shape.shape = [d0, d1]) (hb : shape.blocks = []) (W : Blk K)
    (hW : W.dims = [dimSize d0, dimSize d1]) (h0 : d0 ≠ []) (h1 : d1 ≠ []) (q : G)
    (hex : ∃ r c, r < dimSize d0 ∧ c < dimSize d1 ∧ W.f [r, c] ≠ 0)
    (hq : ∀ r c, r < dimSize d0 → c < dimSize d1 → W.f [r, c] ≠ 0 → chargeAt d0 r + chargeAt d1 c = q)
    (hbig : ∀ r c, r < dimSize d0 → c < dimSize d1 → W.f [r, c] ≠ 0 → 1 ≤ |W.f [r, c]|) :
    ∃ T, chargedOp shape W = .ok T ∧ IsMatrix d0 d1 q W T := by
  have hfind : findSelectionRule (fun x => decide (0 < |x|)) W [d0, d1] = .ok q := by
    refine (C35_find_rule _ W _ _ d0 d1 hW le_rfl le_rfl).1 q ?_ ?_
    · obtain ⟨r, c, hr, hc, h⟩ := hex
      exact ⟨r, c, hr, hc, by simpa using h⟩
    · intro r c hr hc h
      exact hq r c hr hc (by simpa using h)
  obtain ⟨T, e1, e2, e3, hc, cut, hcut, hlook⟩ := fromBasic_eq [d0, d1] q (by simp [h0, h1]) (normAbove (1 / 10 ^ 16 : K)) W
    (by simpa using hW)
  refine ⟨T, ?_, e2, e3, by rw [e2, e3]; exact hc, ?_⟩
  · simp only [chargedOp, hs, hfind, bind, Except.bind, setRule, hb, List.length_nil, ne_eq, not_true, if_false, fromBasicLike]
    rw [e1]
  · intro r c hr hc'
    have he : InRange [r, c] ([d0, d1].map dimSize) := by simp [InRange, hr, hc']
    obtain ⟨⟨b, o⟩, hl⟩ := locateAll_isSome.mpr he
    obtain ⟨secs, hsec, ho⟩ := locateAll_sections hl
    obtain ⟨hdims, hf⟩ := hcut b secs hsec
    have hw := blockWeight_eq hl hsec hdims hf
    simp only [entry, e2, hl, hlook]
    by_cases hz : W.f [r, c] = 0
    · split
      · exact hz.symm
      · rename_i b' hb'
        split at hb'
        · cases hb'
          rw [hf _ _ hl]
        · cases hb'
    · have hal : Allowed [d0, d1] q b := by
        rw [allowed_iff_charge hl]
        simp only [entryCharge, add_zero]
        exact hq r c hr hc' hz
      have hsg : normAbove (1 / 10 ^ 16 : K) (cut b) = true := by
        rw [normAbove, decide_eq_true_iff, hw]
        have hone : (1 : K) ≤ W.f [r, c] ^ 2 := by
          have := hbig r c hr hc' hz
          rw [← sq_abs]
          exact one_le_pow₀ this
        have hle : W.f [r, c] ^ 2 ≤ blockWeight [d0, d1] W [r, c] := by
          unfold blockWeight
          refine Finset.single_le_sum (f := fun e => W.f e ^ 2) (fun e _ => sq_nonneg _) ?_
          rw [Finset.mem_filter, mem_configs]
          exact ⟨he, rfl⟩
        have : ((1 : K) / 10 ^ 16) ^ 2 < 1 := by norm_num
        linarith
      rw [if_pos ⟨hal, hsg⟩]
      exact hf _ _ hl

theorem chargedOp_reject (shape : BT G K) (d0 d1 : Dim G) (hs : shape.shape = [d0, d1]) (W : Blk K)
    (hW : W.dims = [dimSize d0, dimSize d1]) (r c r' c' : Nat) (hr : r < dimSize d0) (hc : c < dimSize d1)
    (hr' : r' < dimSize d0) (hc' : c' < dimSize d1) (h : W.f [r, c] ≠ 0) (h' : W.f [r', c'] ≠ 0)
    (hne : chargeAt d0 r + chargeAt d1 c ≠ chargeAt d0 r' + chargeAt d1 c') :
    chargedOp shape W = Res.throw .logicError := by
  have := (C35_find_rule (fun x => decide (0 < |x|)) W _ _ d0 d1 hW le_rfl le_rfl).2.2 r c r' c' hr hc hr' hc' (by simpa using h)
    (by simpa using h') hne
  simp only [chargedOp, hs, this]
  rfl

/-! ### C107 -/

/-- C107: with the states of a site of two states on one side and their conjugates on the other, `pauli(shape)` returns the
matrices `Sz`, `lo` and the identity, whatever charges the two states have; the rule of `lo` is the difference of the
charges. -/
theorem C107_pauli_partial (shape : BT G K) (ph : Dim G) (hs : shape.shape = [ph, flipped ph]) (hb : shape.blocks = [])
    (h2 : dimSize ph = 2) :
    ∃ sz lo i, pauliB shape = .ok (sz, lo, i) ∧
      IsMatrix ph (flipped ph) 0 ⟨[2, 2], fun o => if o = [0, 0] then 1 else if o = [1, 1] then -1 else 0⟩ sz ∧
      IsMatrix ph (flipped ph) (chargeAt ph 0 - chargeAt ph 1) ⟨[2, 2], fun o => if o = [0, 1] then 1 else 0⟩ lo ∧
      IsMatrix ph (flipped ph) 0 ⟨[2, 2], fun o => if o = [0, 0] ∨ o = [1, 1] then 1 else 0⟩ i := by
  have hne : ph ≠ [] := by rintro rfl; simp [dimSize] at h2
  have hnf : flipped ph ≠ [] := by simpa [flipped] using hne
  have h2' : dimSize (flipped ph) = 2 := by rw [dimSize_flipped, h2]
  have key (W : Blk K) (q : G) (hW : W.dims = [2, 2]) (hex : ∃ r c, r < 2 ∧ c < 2 ∧ W.f [r, c] ≠ 0)
      (hq : ∀ r c, r < 2 → c < 2 → W.f [r, c] ≠ 0 → chargeAt ph r + chargeAt (flipped ph) c = q)
      (hbig : ∀ r c, r < 2 → c < 2 → W.f [r, c] ≠ 0 → 1 ≤ |W.f [r, c]|) :=
    chargedOp_ok shape ph (flipped ph) hs hb W (by rw [hW, h2, h2']) hne hnf q (by rw [h2, h2']; exact hex)
      (by rw [h2, h2']; exact hq) (by rw [h2, h2']; exact hbig)
  have tr {W W' : Blk K} {q : G} {T : BT G K} (h : IsMatrix ph (flipped ph) q W T) (hw : ∀ r c, r < 2 → c < 2 → W.f [r, c] = W'.f [r, c]) :
      IsMatrix ph (flipped ph) q W' T := by
    refine ⟨h.shape, h.rule, h.conserving, fun r c hr hc => ?_⟩
    rw [h.entries r c hr hc, hw r c (by rw [← h2]; exact hr) (by rw [← h2']; exact hc)]
  obtain ⟨sz, z1, z2⟩ := key pauliSz 0 rfl ⟨0, 0, by simp [pauliSz, put]⟩
    (by
      intro r c hr hc h
      rw [chargeAt_flipped]
      interval_cases r <;> interval_cases c <;> simp [pauliSz, put, zeros] at h ⊢)
    (by
      intro r c hr hc h
      interval_cases r <;> interval_cases c <;> simp [pauliSz, put, zeros] at h ⊢)
  obtain ⟨lo, l1, l2⟩ := key pauliLo (chargeAt ph 0 - chargeAt ph 1) rfl ⟨0, 1, by simp [pauliLo, put]⟩
    (by
      intro r c hr hc h
      rw [chargeAt_flipped]
      interval_cases r <;> interval_cases c <;> simp [pauliLo, put, zeros, sub_eq_add_neg] at h ⊢)
    (by
      intro r c hr hc h
      interval_cases r <;> interval_cases c <;> simp [pauliLo, put, zeros] at h ⊢)
  obtain ⟨i, i1, i2⟩ := key pauliId 0 rfl ⟨0, 0, by simp [pauliId, put]⟩
    (by
      intro r c hr hc h
      rw [chargeAt_flipped]
      interval_cases r <;> interval_cases c <;> simp [pauliId, put, zeros] at h ⊢)
    (by
      intro r c hr hc h
      interval_cases r <;> interval_cases c <;> simp [pauliId, put, zeros] at h ⊢)
  refine ⟨sz, lo, i, ?_, tr z2 ?_, tr l2 ?_, tr i2 ?_⟩
  · simp [pauliB, z1, l1, i1, bind, Except.bind]
  all_goals
    intro r c hr hc
    interval_cases r <;> interval_cases c <;> simp [pauliSz, pauliLo, pauliId, put, zeros]

/-- C107: with the states of a site of four states on one side and their conjugates on the other, `fermions(shape)`
returns the annihilators of both spins, the phase operator and the identity when the charges of the empty and the
doubly occupied state add up to those of the two singly occupied ones, and throws otherwise. -/
theorem C107_fermions (shape : BT G K) (ph : Dim G) (hs : shape.shape = [ph, flipped ph]) (hb : shape.blocks = [])
    (h4 : dimSize ph = 4) :
    (chargeAt ph 0 + chargeAt ph 3 = chargeAt ph 1 + chargeAt ph 2 →
      ∃ up dn f i, fermionsB shape = .ok (up, dn, f, i) ∧
        IsMatrix ph (flipped ph) (chargeAt ph 0 - chargeAt ph 1)
          ⟨[4, 4], fun o => if o = [0, 1] ∨ o = [2, 3] then 1 else 0⟩ up ∧
        IsMatrix ph (flipped ph) (chargeAt ph 0 - chargeAt ph 2)
          ⟨[4, 4], fun o => if o = [0, 2] then 1 else if o = [1, 3] then -1 else 0⟩ dn ∧
        IsMatrix ph (flipped ph) 0
          ⟨[4, 4], fun o => if o = [0, 0] ∨ o = [3, 3] then 1 else if o = [1, 1] ∨ o = [2, 2] then -1 else 0⟩ f ∧
        IsMatrix ph (flipped ph) 0
          ⟨[4, 4], fun o => if o = [0, 0] ∨ o = [1, 1] ∨ o = [2, 2] ∨ o = [3, 3] then 1 else 0⟩ i) ∧
    (chargeAt ph 0 + chargeAt ph 3 ≠ chargeAt ph 1 + chargeAt ph 2 → fermionsB shape = Res.throw .logicError) := by
  have hne : ph ≠ [] := by rintro rfl; simp [dimSize] at h4
  have hnf : flipped ph ≠ [] := by simpa [flipped] using hne
  have h4' : dimSize (flipped ph) = 4 := by rw [dimSize_flipped, h4]
  constructor
  · intro hsum
    have key (W : Blk K) (q : G) (hW : W.dims = [4, 4]) (hex : ∃ r c, r < 4 ∧ c < 4 ∧ W.f [r, c] ≠ 0)
        (hq : ∀ r c, r < 4 → c < 4 → W.f [r, c] ≠ 0 → chargeAt ph r + chargeAt (flipped ph) c = q)
        (hbig : ∀ r c, r < 4 → c < 4 → W.f [r, c] ≠ 0 → 1 ≤ |W.f [r, c]|) :=
      chargedOp_ok shape ph (flipped ph) hs hb W (by rw [hW, h4, h4']) hne hnf q (by rw [h4, h4']; exact hex)
        (by rw [h4, h4']; exact hq) (by rw [h4, h4']; exact hbig)
    have tr {W W' : Blk K} {q : G} {T : BT G K} (h : IsMatrix ph (flipped ph) q W T) (hw : ∀ r c, r < 4 → c < 4 → W.f [r, c] = W'.f [r, c]) :
        IsMatrix ph (flipped ph) q W' T := by
      refine ⟨h.shape, h.rule, h.conserving, fun r c hr hc => ?_⟩
      rw [h.entries r c hr hc, hw r c (by rw [← h4]; exact hr) (by rw [← h4']; exact hc)]
    have s1 : chargeAt ph 2 - chargeAt ph 3 = chargeAt ph 0 - chargeAt ph 1 := by
      rw [sub_eq_sub_iff_add_eq_add, add_comm, ← hsum]
    have s2 : chargeAt ph 1 - chargeAt ph 3 = chargeAt ph 0 - chargeAt ph 2 := by
      rw [sub_eq_sub_iff_add_eq_add]; exact hsum.symm
    obtain ⟨up, u1, u2⟩ := key fermiUp (chargeAt ph 0 - chargeAt ph 1) rfl ⟨0, 1, by simp [fermiUp, put]⟩
      (by
        intro r c hr hc h
        rw [chargeAt_flipped, ← sub_eq_add_neg]
        interval_cases r <;> interval_cases c <;> first | rfl | exact s1 | simp [fermiUp, put, zeros] at h)
      (by
        intro r c hr hc h
        interval_cases r <;> interval_cases c <;> simp [fermiUp, put, zeros] at h ⊢)
    obtain ⟨dn, d1, d2⟩ := key fermiDn (chargeAt ph 0 - chargeAt ph 2) rfl ⟨0, 2, by simp [fermiDn, put]⟩
      (by
        intro r c hr hc h
        rw [chargeAt_flipped, ← sub_eq_add_neg]
        interval_cases r <;> interval_cases c <;> first | rfl | exact s2 | simp [fermiDn, put, zeros] at h)
      (by
        intro r c hr hc h
        interval_cases r <;> interval_cases c <;> simp [fermiDn, put, zeros] at h ⊢)
    obtain ⟨f, f1, f2⟩ := key fermiF 0 rfl ⟨0, 0, by simp [fermiF, put]⟩
      (by
        intro r c hr hc h
        rw [chargeAt_flipped]
        interval_cases r <;> interval_cases c <;> simp [fermiF, put, zeros] at h ⊢)
      (by
        intro r c hr hc h
        interval_cases r <;> interval_cases c <;> simp [fermiF, put, zeros] at h ⊢)
    obtain ⟨i, i1, i2⟩ := key fermiId 0 rfl ⟨0, 0, by simp [fermiId, put]⟩
      (by
        intro r c hr hc h
        rw [chargeAt_flipped]
        interval_cases r <;> interval_cases c <;> simp [fermiId, put, zeros] at h ⊢)
      (by
        intro r c hr hc h
        interval_cases r <;> interval_cases c <;> simp [fermiId, put, zeros] at h ⊢)
    refine ⟨up, dn, f, i, ?_, tr u2 ?_, tr d2 ?_, tr f2 ?_, tr i2 ?_⟩
    · simp [fermionsB, u1, d1, f1, i1, bind, Except.bind]
    all_goals
      intro r c hr hc
      interval_cases r <;> interval_cases c <;> simp [fermiUp, fermiDn, fermiF, fermiId, put, zeros]
  · intro hsum
    have : chargedOp shape (fermiUp : Blk K) = Res.throw .logicError := by
      refine chargedOp_reject shape ph (flipped ph) hs fermiUp (by rw [h4, h4']; rfl) 0 1 2 3 (by omega) (by omega) (by omega)
        (by omega) (by simp [fermiUp, put]) (by simp [fermiUp, put]) ?_
      rw [chargeAt_flipped, chargeAt_flipped, ← sub_eq_add_neg, ← sub_eq_add_neg]
      intro h
      rw [sub_eq_sub_iff_add_eq_add] at h
      exact hsum (h.trans (add_comm _ _))
    simp [fermionsB, this, Res.throw, bind, Except.bind]

/-- A shape that already stores blocks is refused. -/
theorem C107_blocks_reject (shape : BT G K) (d0 d1 : Dim G) (hs : shape.shape = [d0, d1]) (hb : shape.blocks ≠ [])
    (h0 : dimSize d0 = 2) (h1 : dimSize d1 = 2) : pauliB shape = Res.throw .logicError := by
  have hW : (pauliSz : Blk K).dims = [dimSize d0, dimSize d1] := by rw [h0, h1]; rfl
  have hc := C35_find_rule (fun x : K => decide (0 < |x|)) pauliSz _ _ d0 d1 hW le_rfl le_rfl
  have hf : (∃ q, findSelectionRule (fun x : K => decide (0 < |x|)) pauliSz [d0, d1] = .ok q) ∨
      findSelectionRule (fun x : K => decide (0 < |x|)) pauliSz [d0, d1] = Res.throw .logicError := by
    by_cases he : chargeAt d0 0 + chargeAt d1 0 = chargeAt d0 1 + chargeAt d1 1
    · left
      refine ⟨_, hc.1 (chargeAt d0 0 + chargeAt d1 0) ⟨0, 0, by omega, by omega, by simp [pauliSz, put]⟩ ?_⟩
      intro r c hr hc h
      rw [h0] at hr; rw [h1] at hc
      interval_cases r <;> interval_cases c <;> simp [pauliSz, put, zeros] at h ⊢
      exact he.symm
    · right
      exact hc.2.2 0 0 1 1 (by omega) (by omega) (by omega) (by omega) (by simp [pauliSz, put]) (by simp [pauliSz, put]) he
  have : chargedOp shape (pauliSz : Blk K) = Res.throw .logicError := by
    rcases hf with ⟨q, hq⟩ | hq
    · simp only [chargedOp, hs, hq, bind, Except.bind, setRule, Res.throw]
      simp [hb]
    · simp only [chargedOp, hs, hq, bind, Except.bind, Res.throw]
  simp [pauliB, this, Res.throw, bind, Except.bind]

/-- C107 fails: the header documents the order lowering operator, `Sz`, identity; the first one returned is `Sz`. -/
theorem C107_order_fails : ∃ a b i, pauliB (⟨[[(1, 1), (1, -1)], [(1, -1), (1, 1)]], 0, []⟩ : BT ℤ ℚ) = .ok (a, b, i) ∧
    entry a.shape a.blocks [0, 0] = 1 ∧ entry b.shape b.blocks [0, 1] = 1 ∧ b.rule = 2 ∧
    ¬ IsMatrix [(1, 1), (1, -1)] [(1, -1), (1, 1)] 2 ⟨[2, 2], fun o => if o = [0, 1] then 1 else 0⟩ a := by
  obtain ⟨a, b, i, h1, h2, h3, -⟩ := C107_pauli_partial (⟨[[(1, 1), (1, -1)], [(1, -1), (1, 1)]], 0, []⟩ : BT ℤ ℚ) [(1, 1), (1, -1)]
    rfl rfl rfl
  refine ⟨a, b, i, h1, ?_, ?_, ?_, ?_⟩
  · exact (h2.entries 0 0 (by decide) (by decide)).trans (by simp)
  · exact (h3.entries 0 1 (by decide) (by decide)).trans (by simp)
  · exact h3.rule.trans (by decide)
  · intro h
    have := h.rule.symm.trans h2.rule
    simp at this

/-- Electrons that conserve the number of particles: the shape of the unit test of the library. -/
example : ∃ up dn f i, fermionsB (⟨[[(1, 0), (2, 1), (1, 2)], [(1, 0), (2, -1), (1, -2)]], 0, []⟩ : BT ℤ ℚ) = .ok (up, dn, f, i) ∧
    up.rule = -1 ∧ dn.rule = -1 ∧ entry dn.shape dn.blocks [1, 3] = -1 := by
  obtain ⟨up, dn, f, i, h1, h2, h3, -⟩ := (C107_fermions (⟨[[(1, 0), (2, 1), (1, 2)], [(1, 0), (2, -1), (1, -2)]], 0, []⟩ : BT ℤ ℚ)
    [(1, 0), (2, 1), (1, 2)] rfl rfl rfl).1 (by decide)
  exact ⟨up, dn, f, i, h1, h2.rule.trans (by decide), h3.rule.trans (by decide),
    (h3.entries 1 3 (by decide) (by decide)).trans (by simp)⟩

/-- Charges that pair no electrons are refused. -/
example : fermionsB (⟨[[(1, 0), (2, 1), (1, 3)], [(1, 0), (2, -1), (1, -3)]], 0, []⟩ : BT ℤ ℚ) = Res.throw .logicError :=
  (C107_fermions _ [(1, 0), (2, 1), (1, 3)] rfl rfl rfl).2 (by decide)

end QuantiT
