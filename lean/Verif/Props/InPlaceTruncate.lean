import Verif.Model.InPlaceTruncate
import Verif.Model.BlockCut
import Verif.Props.SvdError
import Verif.Props.TruncateProduct
/-
C130: `truncate` in Python.
-/
namespace QuantiT
namespace PY
open BT BN Spec Finset
variable {G α : Type} [Field α] [LinearOrder α]

/-- The call as a function of what `truncate` of C++ does with the three tensors. -/
theorem pyTruncate_eq (h : Objects G α) (u d v : Nat) (hud : u ≠ d) (huv : u ≠ v) (hdv : d ≠ v) (maxS minS : Nat) (tol : α) (pw : α → α) (eps : α) :
    pyTruncate h u d v maxS minS tol pw eps =
      let h0 := Function.update (Function.update (Function.update h v (movedFrom (h v))) d (movedFrom (h d))) u (movedFrom (h u))
      match truncateSvd (h u, h d, h v) maxS minS tol pw eps with
      | .error .ub => Res.ub
      | .error (.throw x) => .ok (h0, some x)
      | .ok (a, b, c) => .ok (Function.update (Function.update (Function.update h0 u a) d b) v c, none) := by
  simp only [pyTruncate, takeFrom, Function.update_of_ne hud, Function.update_of_ne huv, Function.update_of_ne hdv]
  rcases truncateSvd (h u, h d, h v) maxS minS tol pw eps with (_ | _) | ⟨_, _, _⟩ <;> rfl

theorem pyTruncate_ok (h : Objects G α) (u d v : Nat) (hud : u ≠ d) (huv : u ≠ v) (hdv : d ≠ v) (maxS minS : Nat) (tol : α) (pw : α → α) (eps : α)
    (a b c : BT G α) (hr : truncateSvd (h u, h d, h v) maxS minS tol pw eps = .ok (a, b, c)) :
    ∃ h', pyTruncate h u d v maxS minS tol pw eps = .ok (h', none) ∧ h' u = a ∧ h' d = b ∧ h' v = c ∧ ∀ i, i ≠ u → i ≠ d → i ≠ v → h' i = h i := by
  rw [pyTruncate_eq h u d v hud huv hdv, hr]
  refine ⟨_, rfl, ?_, ?_, ?_, fun i h1 h2 h3 => ?_⟩
  · simp [Function.update_of_ne huv, Function.update_of_ne hud]
  · simp [Function.update_of_ne hdv]
  · simp
  · simp [Function.update_of_ne h1, Function.update_of_ne h2, Function.update_of_ne h3]

/-- **C130** (partial: the objects are three different ones and there is at least one value).  For factors of any decomposition, in three different
objects, the call returns; the object `d` then holds exactly the values above a threshold, the product of the three objects is the sum of the terms of
these values, and no other object changes. -/
theorem C130_product_partial [AddCommMonoid G] [IsStrictOrderedRing α] (h : Objects G α) (u d v : Nat) (hud : u ≠ d) (huv : u ≠ v) (hdv : d ≠ v)
    (lu lv : Shape G) (ru rv sec : Dim G)
    (hsu : (h u).shape = lu ++ [ru]) (hsv : (h v).shape = lv ++ [rv]) (hsd : (h d).shape = [sec])
    (hru : ru.map Prod.fst = sec.map Prod.fst) (hrv : rv.map Prod.fst = sec.map Prod.fst)
    (hu : Conserving (h u).shape (h u).rule (h u).blocks) (hv : Conserving (h v).shape (h v).rule (h v).blocks)
    (hd : Conserving (h d).shape (h d).rule (h d).blocks)
    (hdesc : Descending (h d).blocks) (hne : vectorValues (h d).blocks ≠ []) (hlen : (vectorValues (h d).blocks).length < 2 ^ 63)
    (maxS minS : Nat) (hmin : 1 ≤ minS) (tol : α) (htol : 0 ≤ tol) (pw : α → α) (hpw : ∀ x, 0 ≤ x → 0 ≤ pw x) (eps : α) :
    ∃ thr h' sec', pyTruncate h u d v maxS minS tol pw eps = .ok (h', none) ∧ (∀ i, i ≠ u → i ≠ d → i ≠ v → h' i = h i) ∧
      (h' d).shape = [sec'] ∧ vectorValues (h' d).blocks = (vectorValues (h d).blocks).filter (fun x => decide (thr < x)) ∧
      ∀ eu ev, InRange eu (lu.map dimSize) → InRange ev (lv.map dimSize) →
        ∑ k ∈ range (dimSize sec'), entry (h' u).shape (h' u).blocks (eu ++ [k]) * entry (h' d).shape (h' d).blocks [k] *
            entry (h' v).shape (h' v).blocks (ev ++ [k]) =
          ∑ k ∈ range (dimSize sec), if thr < entry (h d).shape (h d).blocks [k] then entry (h u).shape (h u).blocks (eu ++ [k]) *
            entry (h d).shape (h d).blocks [k] * entry (h v).shape (h v).blocks (ev ++ [k]) else 0 := by
  obtain ⟨thr, a, b, c, sec', e, h1, h2, h3⟩ := C68_product id id rfl (h u) (h v) (h d) lu lv ru rv sec hsu hsv hsd hru hrv hu hv hd hdesc hne hlen
    maxS minS hmin tol htol pw hpw eps
  obtain ⟨h', e', rfl, rfl, rfl, ho⟩ := pyTruncate_ok h u d v hud huv hdv maxS minS tol pw eps a b c e
  exact ⟨thr, h', sec', e', ho, h1, h2, h3⟩

theorem re_real (t : BT G ℝ) : mapBlocks (RCLike.re : ℝ → ℝ) t = t := by
  obtain ⟨a, b, l⟩ := t
  simp [mapBlocks]

theorem ofReal_real (t : BT G ℝ) : (ofRealB t : BT G ℝ) = t := by
  obtain ⟨a, b, l⟩ := t
  simp [ofRealB, mapBlocks]

/-- **C130.**  Truncating the factors of `svd(A, split)` in place gives what `svd(A, split, tol, min_size, max_size, pow)` returns. -/
theorem C130_two_steps [AddCommGroup G] [LinearOrder G] (fac : Blk ℝ → Blk ℝ × Blk ℝ × Blk ℝ) (t : BT G ℝ) (split : Nat) (h : Objects G ℝ) (u d v : Nat)
    (hud : u ≠ d) (huv : u ≠ v) (hdv : d ≠ v) (hs : svdSplit fac t split = .ok (h u, h d, h v)) (maxS minS : Nat) (tol : ℝ) (pw : ℝ → ℝ) (eps : ℝ)
    (a b c : BT G ℝ) (hr : svdCutB fac eps t split tol minS maxS pw = .ok (a, b, c)) :
    ∃ h', pyTruncate h u d v maxS minS tol pw eps = .ok (h', none) ∧ h' u = a ∧ h' d = b ∧ h' v = c ∧
      ∀ i, i ≠ u → i ≠ d → i ≠ v → h' i = h i := by
  refine pyTruncate_ok h u d v hud huv hdv maxS minS tol pw eps a b c ?_
  unfold svdCutB at hr
  rw [hs] at hr
  simp only [bind, Except.bind, re_real] at hr
  rcases e : truncateSvd (h u, h d, h v) maxS minS tol pw eps with x | ⟨a', b', c'⟩
  · rw [e] at hr
    cases hr
  · rw [e] at hr
    simp only [ofReal_real, Except.ok.injEq] at hr
    rw [hr]

/-- A tensor of three dimensions, with a singular value decomposition of matrices that exists: the hypotheses of `C130_two_steps` are met. -/
example : ∃ (fac : Blk ℝ → Blk ℝ × Blk ℝ × Blk ℝ) (h h' : Objects ℤ ℝ), svdSplit fac (exBatch ℝ) 2 = .ok (h 0, h 1, h 2) ∧
    pyTruncate h 0 1 2 1 1 0 (fun x => x ^ 2) 0 = .ok (h', none) ∧
    svdCutB fac 0 (exBatch ℝ) 2 0 1 1 (fun x => x ^ 2) = .ok (h' 0, h' 1, h' 2) := by
  obtain ⟨fac, hfac⟩ := LA.denseSvd_exists ℝ
  obtain ⟨u, d, v, b, σ, _, _, _, h4, h5⟩ := C68_error_split fac hfac (exBatch ℝ) [[(1, 0), (2, 0)], [(2, 0)]] [[(2, 0)]] rfl (by simp) (by simp)
    (exBatch_conserving ℝ) (by unfold exBatch; simp [dimSize]) (by simp [exBatch]) (by norm_num [dimSize]) 0 0 le_rfl 1 1 le_rfl (fun x => x ^ 2)
    (fun x _ => sq_nonneg x)
  obtain ⟨a, b', c, _, thr, h6, _⟩ := h5 (h4 ⟨[2, 1, 1], by unfold InRange; exact .cons (by decide) (.cons (by decide) (.cons (by decide) .nil)),
    by simp [entry, locateAll, locate, exBatch, lookup]⟩)
  have h6 : svdCutB fac 0 (exBatch ℝ) 2 0 1 1 (fun x => x ^ 2) = .ok (a, b', c) := h6
  rcases e : svdSplit fac (exBatch ℝ) 2 with x | ⟨u, d, v⟩
  · unfold svdCutB at h6
    rw [e] at h6
    cases h6
  · obtain ⟨h', e', h7, h8, h9, _⟩ := C130_two_steps fac (exBatch ℝ) 2 (fun i => if i = 0 then u else if i = 1 then d else v) 0 1 2 (by decide)
      (by decide) (by decide) e 1 1 0 (fun x => x ^ 2) 0 a b' c h6
    exact ⟨fac, _, h', e, e', by rw [h7, h8, h9]; exact h6⟩

/-- **C130 fails** for a vector of values without a block, as `svd` returns for a tensor without a block: the call raises an exception and the three
objects are left without dimensions and without blocks. -/
theorem C130_empty_fails (h : Objects G α) (u d v : Nat) (hud : u ≠ d) (huv : u ≠ v) (hdv : d ≠ v) (hd : (h d).blocks = [])
    (maxS minS : Nat) (tol : α) (pw : α → α) (eps : α) :
    ∃ h', pyTruncate h u d v maxS minS tol pw eps = .ok (h', some .outOfRange) ∧
      ∀ i, i = u ∨ i = d ∨ i = v → (h' i).shape = [] ∧ (h' i).blocks = [] := by
  have hr : truncateSvd (h u, h d, h v) maxS minS tol pw eps = Res.throw .outOfRange := by
    have hk : keepAbove (h d) maxS minS tol pw eps = Res.throw .outOfRange := by
      unfold keepAbove allValues
      rw [hd]
      rfl
    simp only [truncateSvd, truncateImpl, hk]
    rfl
  rw [pyTruncate_eq h u d v hud huv hdv, hr]
  refine ⟨_, rfl, ?_⟩
  rintro i (rfl | rfl | rfl)
  · simp [movedFrom]
  · simp [Function.update_of_ne hud.symm, movedFrom]
  · simp [Function.update_of_ne huv.symm, Function.update_of_ne hdv.symm, movedFrom]

/-- **C130 fails** for every eigenvalue decomposition: the call raises an exception and both objects are left without dimensions and without
blocks. -/
theorem C130_eigh_fails (h : Objects G α) (e s : Nat) (hes : e ≠ s) (maxS minS : Nat) (tol : α) (pw : α → α) (eps : α) :
    ∃ h', pyTruncateEigh h e s maxS minS tol pw eps = .ok (h', some .outOfRange) ∧
      ∀ i, i = e ∨ i = s → (h' i).shape = [] ∧ (h' i).blocks = [] := by
  refine ⟨_, rfl, ?_⟩
  rintro i (rfl | rfl)
  · simp [movedFrom]
  · simp [Function.update_of_ne hes.symm, takeFrom, movedFrom]

/-- The loop over the blocks of `d` with a tensor that has been moved from. -/
theorem fold_moved (thr : α) (nd : Nat) (l : List (List Nat × Blk α)) (hk : ∀ kb ∈ l, kb.1.getLastD 0 < nd) (sh : Shape G) (kept : FM (List Nat) (Blk α))
    (U W : BT G α) (hU : U.shape = []) (hex : ∃ kb ∈ l, lowerBound kb.2 thr ≠ 0) : l.foldlM (truncStep thr nd) (sh, kept, [U, W]) = Res.ub := by
  induction l generalizing sh kept U W with
  | nil => simp at hex
  | cons kb l ih =>
    rw [List.foldlM_cons]
    by_cases hn : lowerBound kb.2 thr = 0
    · have e : truncStep thr nd (sh, kept, [U, W]) kb = .ok (sh, kept, [U, W].map fun u => ⟨u.shape, u.rule,
          removeBlocks (fun x => endsWith (kb.1.getLastD 0) x.1) u.blocks⟩) := by
        simp only [truncStep, hn, if_true]
      rw [e]
      refine ih (fun x hx => hk x (by simp [hx])) sh kept _ _ hU ?_
      obtain ⟨x, hx, hx'⟩ := hex
      rcases List.mem_cons.1 hx with rfl | hx
      · exact absurd hn hx'
      · exact ⟨x, hx, hx'⟩
    · have hj := hk kb (by simp)
      have hub : truncBlocks nd (kb.1.getLastD 0) (lowerBound kb.2 thr) U = Res.ub := by
        unfold truncBlocks
        rw [hU]
        exact if_pos (by simpa using hj)
      have e : truncStep thr nd (sh, kept, [U, W]) kb = Res.ub := by
        simp only [truncStep, hn, if_false]
        cases setPacked sh (kb.1.getLastD 0) (lowerBound kb.2 thr) with
        | none => rfl
        | some s =>
          simp only [List.mapM_cons, hub]
          rfl
      rw [e]
      rfl

/-- **C130 fails** if the same object is given for `U` and `V`, whatever it holds and for all positive values: undefined behaviour. -/
theorem C130_same_object_fails [AddCommMonoid G] [IsStrictOrderedRing α] (h : Objects G α) (u d : Nat) (hud : u ≠ d) (sec : Dim G)
    (hsd : (h d).shape = [sec]) (hd : Conserving (h d).shape (h d).rule (h d).blocks) (hdesc : Descending (h d).blocks)
    (hpos : ∀ x ∈ vectorValues (h d).blocks, 0 < x) (hne : vectorValues (h d).blocks ≠ []) (hlen : (vectorValues (h d).blocks).length < 2 ^ 63)
    (maxS minS : Nat) (hmin : 1 ≤ minS) (tol : α) (htol : 0 ≤ tol) (pw : α → α) (hpw : ∀ x, 0 ≤ x → 0 ≤ pw x) (eps : α) (heps : 0 < eps) :
    pyTruncate h u d u maxS minS tol pw eps = Res.ub := by
  obtain ⟨vs, K, hp, -, k1, k2, hthr, -⟩ := keepAbove_eq (h d) hne hlen tol htol pw hpw eps maxS minS hmin
  have hk : ∀ kb ∈ (h d).blocks, ∃ j < sec.length, kb.1 = [j] := by
    intro kb hkb
    obtain ⟨secs, h1, _⟩ := hd.block kb.1 kb.2 hkb
    rw [hsd] at h1
    match hk : kb.1 with
    | [] => rw [hk] at h1; cases h1
    | [j] =>
      rw [hk] at h1
      obtain ⟨s, r, h3, _⟩ := sections_cons.1 h1
      exact ⟨j, (List.getElem?_eq_some_iff.1 h3).1, rfl⟩
    | j :: j' :: l =>
      rw [hk] at h1
      obtain ⟨s, r, _, h4, _⟩ := sections_cons.1 h1
      cases h4
  have hc : vs.getD (K - 1) 0 ∈ vectorValues (h d).blocks := by
    rw [List.getD_eq_getElem _ _ (by omega)]
    exact hp.mem_iff.1 (List.getElem_mem _)
  set c := vs.getD (K - 1) 0 with hcd
  have hlt : c - 2 * c * eps < c := by
    have := mul_pos (mul_pos two_pos (hpos c hc)) heps
    linarith
  have hex : ∃ kb ∈ (h d).blocks.reverse, lowerBound kb.2 (c - 2 * c * eps) ≠ 0 := by
    unfold vectorValues at hc
    obtain ⟨kb, hkb, hx⟩ := List.mem_flatMap.1 hc
    obtain ⟨i, hi, hi'⟩ := List.mem_map.1 hx
    refine ⟨kb, List.mem_reverse.2 hkb, ?_⟩
    rw [(lowerBound_eq kb.2 _ (hdesc kb hkb)).2]
    intro h0
    have := List.filter_eq_nil_iff.1 (List.length_eq_zero_iff.1 h0) i hi
    simp only [hi', decide_eq_true_eq] at this
    exact this hlt
  have hr : truncateSvd (movedFrom (h u), h d, h u) maxS minS tol pw eps = Res.ub := by
    unfold truncateSvd truncateImpl
    simp only [hthr]
    rw [hsd]
    have := fold_moved (c - 2 * c * eps) ([sec].flatten.length) (h d).blocks.reverse (by
      intro kb hkb
      obtain ⟨j, hj, e⟩ := hk kb (List.mem_reverse.1 hkb)
      rw [e]
      simpa using hj) [sec] [] (movedFrom (h u)) (h u) rfl hex
    simp only [bind, Except.bind] at this ⊢
    rw [this]
    rfl
  simp only [pyTruncate, takeFrom, Function.update_self, Function.update_of_ne hud, Function.update_of_ne hud.symm, hr]
  rfl

/-- The hypotheses are met: `truncate(U, d, U, ...)` is undefined, `truncate` with a copy of `U` returns. -/
example : ∃ (h : Objects ℤ ℚ), pyTruncate h 0 1 0 1 1 0 (fun x => x ^ 2) (1 / 4) = Res.ub ∧
    (∃ h', pyTruncate (Function.update h 2 (h 0)) 0 1 2 1 1 0 (fun x => x ^ 2) (1 / 4) = .ok (h', none)) := by
  refine ⟨fun i => if i = 1 then ex40 else ex40w, ?_, ?_⟩
  · exact C130_same_object_fails (fun i => if i = 1 then ex40 else ex40w) 0 1 (by decide) _ rfl ex40_conserving ex40_descending
      (by simp [ex40, vectorValues]) (by simp [ex40, vectorValues]) (by simp [ex40, vectorValues]) 1 1 le_rfl 0 le_rfl (fun x => x ^ 2)
      (fun x _ => sq_nonneg x) (1 / 4) (by norm_num)
  · obtain ⟨_, h', _, e, _⟩ := C130_product_partial (Function.update (fun i => if i = 1 then ex40 else ex40w) 2 ex40w) 0 1 2 (by decide) (by decide)
      (by decide) [[(1, 0), (1, 1)]] [[(1, 0), (1, 1)]]
      [(1, 0), (1, -1)] [(1, 0), (1, -1)] _ rfl rfl rfl rfl rfl ex40w_conserving ex40w_conserving ex40_conserving ex40_descending
      (by simp [ex40, vectorValues]) (by simp [ex40, vectorValues]) 1 1 le_rfl 0 le_rfl (fun x => x ^ 2) (fun x _ => sq_nonneg x) (1 / 4)
    exact ⟨h', e⟩

end PY
end QuantiT
