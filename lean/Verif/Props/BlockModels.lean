import Verif.Lemmas.BlockModels
import Verif.Lemmas.BlockEdges
import Verif.Props.Models
/-
C83, C84: Hamiltonians with conserved quantities.
-/
set_option linter.unusedSectionVars false
namespace QuantiT
namespace BN
open Spec BT MP Finset
variable {G K : Type}

theorem siteFromDense_ok [AddCommMonoid G] [DecidableEq G] [Field K] [LinearOrder K] [IsStrictOrderedRing K] (shape : BT G K)
    (hp : ∀ d ∈ shape.shape, d ≠ []) (W : Blk K) (hd : W.dims = shape.shape.map dimSize) :
    (Convertible shape.shape shape.rule W → ∃ T, siteFromDense shape W = .ok T ∧ Converted shape.shape shape.rule W T) ∧
    (¬ Convertible shape.shape shape.rule W → siteFromDense shape W = Res.throw .invalidArgument) := by
  classical
  obtain ⟨T, h1, h2, h3, h4, h5⟩ := siteFromDense_eq shape hp W hd
  rw [h5]
  refine ⟨fun h => ⟨T, if_pos h, h1, h2, h3, fun e he hS => ?_, fun e he hS => ?_⟩, fun h => if_neg h⟩
  · rw [h4 e he, if_pos hS]
  · rw [h4 e he, if_neg hS]

theorem sitesFromDense_ok [AddCommMonoid G] [DecidableEq G] [Field K] [LinearOrder K] [IsStrictOrderedRing K] (shape : BT G K)
    (hp : ∀ d ∈ shape.shape, d ≠ []) : ∀ Ws : List (Blk K), (∀ W ∈ Ws, W.dims = shape.shape.map dimSize) →
    ((∀ W ∈ Ws, Convertible shape.shape shape.rule W) → ∃ Ts, Ws.mapM (siteFromDense shape) = .ok Ts ∧
      List.Forall₂ (Converted shape.shape shape.rule) Ws Ts) ∧
    ((∃ W ∈ Ws, ¬ Convertible shape.shape shape.rule W) → Ws.mapM (siteFromDense shape) = Res.throw .invalidArgument)
  | [], _ => ⟨fun _ => ⟨[], rfl, .nil⟩, fun ⟨_, h, _⟩ => by cases h⟩
  | W :: Ws, hd => by
    obtain ⟨a1, a2⟩ := siteFromDense_ok shape hp W (hd W (by simp))
    obtain ⟨b1, b2⟩ := sitesFromDense_ok shape hp Ws (fun X hX => hd X (by simp [hX]))
    constructor
    · intro h
      obtain ⟨T, t1, t2⟩ := a1 (h W (by simp))
      obtain ⟨Ts, s1, s2⟩ := b1 (fun X hX => h X (by simp [hX]))
      exact ⟨T :: Ts, by simp only [List.mapM_cons, t1, s1, bind, Except.bind]; rfl, .cons t2 s2⟩
    · rintro ⟨X, hX, hn⟩
      by_cases hW : Convertible shape.shape shape.rule W
      · obtain ⟨T, t1, t2⟩ := a1 hW
        have : ∃ X ∈ Ws, ¬ Convertible shape.shape shape.rule X := by
          rcases List.mem_cons.1 hX with rfl | hX
          · exact absurd hW hn
          · exact ⟨X, hX, hn⟩
        simp only [List.mapM_cons, t1, b2 this, bind, Except.bind]; rfl
      · simp only [List.mapM_cons, a2 hW, bind, Except.bind]; rfl

theorem view_last [AddCommGroup G] [DecidableEq G] [Zero K] (t : BT G K) (hc : Conserving t.shape t.rule t.blocks)
    (hz : ∀ d ∈ t.shape, 0 < dimSize d) (dims : List Int) (h : Picks t.shape dims) (hlast : dims.getLast? = some (-1)) :
    ∃ r, basicCreateView t dims true = .ok r ∧ r.shape = pinned t.shape dims ∧ r.rule = t.rule := by
  obtain ⟨r, h1, h2, h3, _⟩ := C30_view_preserve_rank_partial t hc hz dims h
    (fun kb _ i d a _ h2 h3 => absurd (by rw [← hlast, List.getLast?_eq_getElem?]) (h3 (dims.length - 1) (by
      have := (List.getElem?_eq_some_iff.mp h2).1
      omega)))
  exact ⟨r, h1, h2, h3⟩

/-- **C83.**  `to_bMPO` on a chain of at least two tensors of the sizes of the shape: when every entry has the charge of the
selection rule and lies in a block of norm above 1e-4, or is negligible (1e-8), the result has one block tensor per site, with
the shape of the site, that holds the entries of the given tensor; otherwise `invalid_argument`. -/
theorem C83_to_bMPO [AddCommGroup G] [DecidableEq G] [Field K] [LinearOrder K] [IsStrictOrderedRing K] (t : BT G K)
    (hr : t.shape.length = 4) (hc : Conserving t.shape t.rule t.blocks) (hz : ∀ d ∈ t.shape, 0 < dimSize d) (Ws : List (Blk K))
    (hL : 2 ≤ Ws.length) (hd : ∀ i W, Ws[i]? = some W → W.dims = (siteShape t.shape Ws.length i).map dimSize) :
    ((∀ i W, Ws[i]? = some W → Convertible (siteShape t.shape Ws.length i) t.rule W) →
      ∃ out, toBMPO Ws t = .ok out ∧ out.length = Ws.length ∧
        ∀ i W T, Ws[i]? = some W → out[i]? = some T → Converted (siteShape t.shape Ws.length i) t.rule W T) ∧
    (¬ (∀ i W, Ws[i]? = some W → Convertible (siteShape t.shape Ws.length i) t.rule W) →
      toBMPO Ws t = Res.throw .invalidArgument) := by
  obtain ⟨a, rest, rfl⟩ : ∃ a rest, Ws = a :: rest := by
    rcases Ws with _ | ⟨a, rest⟩
    · simp at hL
    · exact ⟨a, rest, rfl⟩
  obtain ⟨mid, z, rfl⟩ : ∃ mid z, rest = mid ++ [z] := by
    rcases List.eq_nil_or_concat rest with rfl | ⟨mid, z, rfl⟩
    · simp at hL
    · exact ⟨mid, z, by simp⟩
  obtain ⟨d0, d1, d2, d3, hs⟩ : ∃ d0 d1 d2 d3, t.shape = [d0, d1, d2, d3] := by
    rcases hsh : t.shape with _ | ⟨d0, _ | ⟨d1, _ | ⟨d2, _ | ⟨d3, _ | ⟨d4, l⟩⟩⟩⟩⟩ <;> rw [hsh] at hr <;> simp at hr
    exact ⟨_, _, _, _, rfl⟩
  have z0 := hz d0 (by rw [hs]; simp)
  have z1 := hz d1 (by rw [hs]; simp)
  have z2 := hz d2 (by rw [hs]; simp)
  have z3 := hz d3 (by rw [hs]; simp)
  have hlen : (a :: (mid ++ [z])).length = mid.length + 2 := by simp
  have hn : (sizes t.shape).head? = some (dimSize d0) := by rw [sizes_eq, hs]; rfl
  have e0 : siteShape t.shape (mid.length + 2) 0 = pinned t.shape [(dimSize d0 : Int) - 1, -1, -1, -1] := by
    rw [siteShape, if_pos rfl, hs]; rfl
  have eL : siteShape t.shape (mid.length + 2) (mid.length + 1) = pinned t.shape [-1, -1, 0, -1] := by
    rw [siteShape, if_neg (by omega), if_pos (by omega)]
  have eM : ∀ i, i < mid.length → siteShape t.shape (mid.length + 2) (i + 1) = t.shape := by
    intro i hi
    rw [siteShape, if_neg (by omega), if_neg (by omega)]
  rw [hlen] at hd ⊢
  have g0 : (a :: (mid ++ [z]))[0]? = some a := rfl
  have gL : (a :: (mid ++ [z]))[mid.length + 1]? = some z := by simp
  have gM : ∀ i W, mid[i]? = some W → (a :: (mid ++ [z]))[i + 1]? = some W := by
    intro i W h
    rw [List.getElem?_cons_succ, List.getElem?_append_left (List.getElem?_eq_some_iff.1 h).1, h]
  -- the two views
  obtain ⟨s0, v1, v2, v3⟩ := view_last t hc hz [(dimSize d0 : Int) - 1, -1, -1, -1]
    (by rw [hs]; exact .cons (.inr ⟨by omega, by omega⟩) (.cons (.inl rfl) (.cons (.inl rfl) (.cons (.inl rfl) .nil)))) rfl
  obtain ⟨sl, w1, w2, w3⟩ := view_last t hc hz [-1, -1, 0, -1]
    (by rw [hs]; exact .cons (.inl rfl) (.cons (.inl rfl) (.cons (.inr ⟨by omega, by omega⟩) (.cons (.inl rfl) .nil)))) rfl
  have p0 : ∀ d ∈ s0.shape, d ≠ [] := by
    rw [v2, hs]
    intro d hd
    simp only [pinned, List.mem_cons, List.not_mem_nil, or_false] at hd
    rcases hd with rfl | rfl | rfl | rfl
    · split <;> [exact populated_of_pos hz d0 (by rw [hs]; simp); simp]
    all_goals exact populated_of_pos hz _ (by rw [hs]; simp)
  have pl : ∀ d ∈ sl.shape, d ≠ [] := by
    rw [w2, hs]
    intro d hd
    simp only [pinned, List.mem_cons, List.not_mem_nil, or_false] at hd
    rcases hd with rfl | rfl | rfl | rfl
    · exact populated_of_pos hz _ (by rw [hs]; simp)
    · exact populated_of_pos hz _ (by rw [hs]; simp)
    · simp
    · exact populated_of_pos hz _ (by rw [hs]; simp)
  obtain ⟨a1, a2⟩ := siteFromDense_ok s0 p0 a (by rw [hd 0 a g0, e0, v2])
  obtain ⟨l1, l2⟩ := siteFromDense_ok sl pl z (by rw [hd _ z gL, eL, w2])
  obtain ⟨m1, m2⟩ := sitesFromDense_ok t (populated_of_pos hz) mid (by
    intro W hW
    obtain ⟨i, hi⟩ := List.mem_iff_getElem?.1 hW
    rw [hd _ W (gM i W hi), eM i (List.getElem?_eq_some_iff.1 hi).1])
  rw [v2, v3, ← e0] at a1 a2
  rw [w2, w3, ← eL] at l1 l2
  have hunf : toBMPO (a :: (mid ++ [z])) t = (do
      let front ← siteFromDense s0 a
      let m ← mid.mapM (siteFromDense t)
      let back ← siteFromDense sl z
      .ok (front :: m ++ [back])) := by
    unfold toBMPO
    have q1 : (a :: (mid ++ [z])).getLast? = some z := by
      rw [← List.cons_append, List.getLast?_concat]
    have q2 : ((a :: (mid ++ [z])).drop 1).take ((a :: (mid ++ [z])).length - 2) = mid := by
      rw [hlen]; simp
    rw [q1, hn, q2]
    have q3 : ¬ (a :: (mid ++ [z])).length = 1 := by simp
    simp only [List.head?_cons, v1, w1, bind, Except.bind, if_neg q3]
  constructor
  · intro h
    obtain ⟨A, x1, x2⟩ := a1 (h 0 a g0)
    obtain ⟨M, y1, y2⟩ := m1 (by
      intro W hW
      obtain ⟨i, hi⟩ := List.mem_iff_getElem?.1 hW
      have := h _ W (gM i W hi)
      rwa [eM i (List.getElem?_eq_some_iff.1 hi).1] at this)
    obtain ⟨Z, z1, z2⟩ := l1 (h _ z gL)
    have hM := y2.length_eq
    refine ⟨A :: M ++ [Z], ?_, by simp [hM], ?_⟩
    · rw [hunf]
      simp only [x1, y1, z1, bind, Except.bind]
    · intro i W T hW hT
      rcases i with _ | i
      · cases hW; cases hT
        exact x2
      · rw [List.getElem?_cons_succ] at hW
        rw [List.cons_append, List.getElem?_cons_succ] at hT
        by_cases hi : i < mid.length
        · rw [List.getElem?_append_left hi] at hW
          rw [List.getElem?_append_left (hM ▸ hi)] at hT
          rw [eM i hi]
          exact List.Forall₂.get y2 hi (hM ▸ hi) |> fun q => by
            rw [List.getElem?_eq_getElem hi] at hW
            rw [List.getElem?_eq_getElem (hM ▸ hi)] at hT
            cases hW; cases hT
            exact q
        · have hi' : i < mid.length + 1 := by
            have := (List.getElem?_eq_some_iff.1 hW).1
            simpa using this
          have hie : i = mid.length := by omega
          subst hie
          rw [List.getElem?_append_right le_rfl, Nat.sub_self] at hW
          rw [List.getElem?_append_right (by omega), hM, Nat.sub_self] at hT
          cases hW; cases hT
          exact z2
  · intro hn'
    rw [hunf]
    by_cases c0 : Convertible (siteShape t.shape (mid.length + 2) 0) t.rule a
    · obtain ⟨A, x1, _⟩ := a1 c0
      by_cases cm : ∀ W ∈ mid, Convertible t.shape t.rule W
      · obtain ⟨M, y1, _⟩ := m1 cm
        have cl : ¬ Convertible (siteShape t.shape (mid.length + 2) (mid.length + 1)) t.rule z := by
          intro cl
          refine hn' fun i W hW => ?_
          rcases i with _ | i
          · cases hW
            exact c0
          · rw [List.getElem?_cons_succ] at hW
            by_cases hi : i < mid.length
            · rw [List.getElem?_append_left hi] at hW
              rw [eM i hi]
              exact cm W (List.mem_of_getElem? hW)
            · have hi' : i < mid.length + 1 := by
                have := (List.getElem?_eq_some_iff.1 hW).1
                simpa using this
              have hie : i = mid.length := by omega
              subst hie
              rw [List.getElem?_append_right le_rfl, Nat.sub_self] at hW
              cases hW
              exact cl
        simp only [x1, y1, l2 cl, bind, Except.bind]; rfl
      · have : ∃ W ∈ mid, ¬ Convertible t.shape t.rule W := by
          by_contra hx
          exact cm fun W hW => by
            by_contra hw
            exact hx ⟨W, hW, hw⟩
        simp only [x1, m2 this, bind, Except.bind]; rfl
    · simp only [a2 c0, bind, Except.bind]; rfl

/-- **C83.**  Whatever is returned is the given operator: no entry is off by more than 2e-8. -/
theorem C83_accuracy [AddCommGroup G] [DecidableEq G] [Field K] [LinearOrder K] [IsStrictOrderedRing K] (t : BT G K)
    (hr : t.shape.length = 4) (hc : Conserving t.shape t.rule t.blocks) (hz : ∀ d ∈ t.shape, 0 < dimSize d) (Ws : List (Blk K))
    (hL : 2 ≤ Ws.length) (hd : ∀ i W, Ws[i]? = some W → W.dims = (siteShape t.shape Ws.length i).map dimSize)
    (out : List (BT G K)) (h : toBMPO Ws t = .ok out) :
    out.length = Ws.length ∧ ∀ i W T, Ws[i]? = some W → out[i]? = some T → T.shape = siteShape t.shape Ws.length i ∧
      T.rule = t.rule ∧ Conserving T.shape T.rule T.blocks ∧
      ∀ e, InRange e W.dims → |entry T.shape T.blocks e - W.f e| ≤ 2 / 10 ^ 8 := by
  obtain ⟨h1, h2⟩ := C83_to_bMPO t hr hc hz Ws hL hd
  by_cases hC : ∀ i W, Ws[i]? = some W → Convertible (siteShape t.shape Ws.length i) t.rule W
  · obtain ⟨out', o1, o2, o3⟩ := h1 hC
    rw [o1] at h
    cases h
    refine ⟨o2, fun i W T hW hT => ?_⟩
    have c := o3 i W T hW hT
    refine ⟨c.shape, c.rule, c.conserving, fun e he => ?_⟩
    by_cases hs : Survives (siteShape t.shape Ws.length i) t.rule W e
    · rw [c.kept e he hs, sub_self, abs_zero]; positivity
    · rw [c.lost e he hs, zero_sub, abs_neg]
      have hn : |W.f e| ≤ 1 / 10 ^ 8 + 1 / 10 ^ 5 * |W.f e| := (hC i W hW e he).resolve_left hs
      have h0 := abs_nonneg (W.f e)
      by_contra hlt
      rw [not_le] at hlt
      have : (1 : K) / 10 ^ 5 * |W.f e| ≤ 1 / 2 * |W.f e| := mul_le_mul_of_nonneg_right (by norm_num) h0
      linarith
  · rw [h2 hC] at h
    cases h

end BN
end QuantiT
