import Verif.Props.Types
/-
C110: factorisations and element types.
-/
namespace QuantiT.TY
open Spec BT Finset
variable {G : Type}

/-! ### Applying a function to the entries before or after a rearrangement -/

/-- One block with a function applied to its entries. -/
def onBlk {R S : Type} (g : R → S) (b : Blk R) : Blk S := ⟨b.dims, fun o => g (b.f o)⟩

theorem mapBlocks_def {R S : Type} (g : R → S) (t : BT G R) : mapBlocks g t = ⟨t.shape, t.rule, t.blocks.map fun kb => (kb.1, onBlk g kb.2)⟩ := rfl

theorem sortKeys_map {R S : Type} (g : R → S) (l : FM (List Nat) (Blk R)) :
    sortKeys (l.map fun kb => (kb.1, onBlk g kb.2)) = (sortKeys l).map fun kb => (kb.1, onBlk g kb.2) :=
  (List.map_insertionSort (r := fun a b : List Nat × Blk R => a.1 ≤ b.1) (s := fun a b : List Nat × Blk S => a.1 ≤ b.1)
    (f := fun kb => (kb.1, onBlk g kb.2)) l (fun _ _ _ _ => Iff.rfl)).symm

theorem mapM_map_res {α β γ δ : Type} (f : α → Res β) (f' : γ → Res δ) (p : α → γ) (q : β → δ)
    (h : ∀ a, f' (p a) = (f a).map q) : ∀ l : List α, (l.map p).mapM f' = (l.mapM f).map (List.map q)
  | [] => rfl
  | a :: l => by
    rw [List.map_cons, List.mapM_cons, List.mapM_cons, h, mapM_map_res f f' p q h l]
    rcases f a with e | b
    · rfl
    · rcases l.mapM f with e | bs
      · rfl
      · rfl

theorem mkChecked_map {R S : Type} [AddCommMonoid G] [DecidableEq G] (g : R → S) (sh : Shape G) (rule : G) (l : FM (List Nat) (Blk R)) :
    mkChecked sh rule (l.map fun kb => (kb.1, onBlk g kb.2)) = (mkChecked sh rule l).map (mapBlocks g) := by
  unfold mkChecked
  have : (l.map fun kb => (kb.1, onBlk g kb.2)).mapM (checkBlock sh rule) = l.mapM (checkBlock sh rule) := by
    rw [mapM_map_res (checkBlock sh rule) (checkBlock sh rule) (fun kb => (kb.1, onBlk g kb.2)) id]
    · rcases l.mapM (checkBlock sh rule) with e | b
      · rfl
      · simp [Except.map]
    · intro kb
      have : checkBlock sh rule (kb.1, onBlk g kb.2) = checkBlock sh rule kb := rfl
      rw [this]
      rcases checkBlock sh rule kb with e | b <;> rfl
  rw [this]
  rcases l.mapM (checkBlock sh rule) with e | b
  · rfl
  · simp only [bind, Except.bind]
    split <;> rfl

theorem reshapeBlk_map {R S : Type} (g : R → S) (ds : List Nat) (b : Blk R) : reshapeBlk ds (onBlk g b) = (reshapeBlk ds b).map (onBlk g) := by
  unfold reshapeBlk
  by_cases h : ds.prod = b.dims.prod
  · rw [if_pos h, if_pos (show ds.prod = (onBlk g b).dims.prod from h)]
    rfl
  · rw [if_neg h, if_neg (show ¬ ds.prod = (onBlk g b).dims.prod from h)]
    rfl

/-- One block of `reshape`. -/
def reOne {R : Type} (sh : Shape G) (cuts : List Nat) (kb : List Nat × Blk R) : Res (List Nat × Blk R) := do
  let gb := groupBounds cuts sh.length
  let key := gb.map fun ab => (flattenLoop (slice ab (secCounts sh)) (slice ab kb.1)).1
  let q ← blockProps sh kb.1
  let b ← reshapeBlk (newShapeLoop (0 :: cuts ++ [sh.length]) 0 0 (q.map Prod.fst) (List.replicate gb.length 1)) kb.2
  .ok (key, b)

theorem reOne_map {R S : Type} (g : R → S) (sh : Shape G) (cuts : List Nat) (kb : List Nat × Blk R) :
    reOne sh cuts (kb.1, onBlk g kb.2) = (reOne sh cuts kb).map fun kb => (kb.1, onBlk g kb.2) := by
  unfold reOne
  simp only [bind, Except.bind]
  rcases blockProps sh kb.1 with e | q
  · rfl
  simp only [reshapeBlk_map]
  split
  · rename_i e he
    rcases hb : reshapeBlk (newShapeLoop (0 :: cuts ++ [sh.length]) 0 0 (q.map Prod.fst) (List.replicate (groupBounds cuts sh.length).length 1)) kb.2 with e' | b
    · rw [hb] at he
      cases he
      rfl
    · rw [hb] at he
      cases he
  · rename_i e he
    rcases hb : reshapeBlk (newShapeLoop (0 :: cuts ++ [sh.length]) 0 0 (q.map Prod.fst) (List.replicate (groupBounds cuts sh.length).length 1)) kb.2 with e' | b
    · rw [hb] at he
      cases he
    · rw [hb] at he
      cases he
      rfl

theorem reshape_eq' {R : Type} [AddCommMonoid G] [DecidableEq G] (t : BT G R) (cuts : List Nat) :
    reshape t cuts = if t.shape = [] then Res.ub
      else if ¬ (groupBounds cuts t.shape.length).all (fun ab => decide (ab.1 ≤ ab.2 ∧ ab.2 ≤ t.shape.length)) then Res.ub
      else (groupBounds cuts t.shape.length).mapM (fun ab => fuseDim (slice ab t.shape)) >>= fun sh =>
        t.blocks.mapM (reOne t.shape cuts) >>= fun bl => mkChecked sh t.rule (sortKeys bl) := by
  unfold reshape
  dsimp only
  by_cases h1 : t.shape = []
  · rw [if_pos h1, if_pos h1]
  rw [if_neg h1, if_neg h1]
  by_cases h2 : ¬ (groupBounds cuts t.shape.length).all (fun ab => decide (ab.1 ≤ ab.2 ∧ ab.2 ≤ t.shape.length)) = true
  · rw [if_pos h2, if_pos h2]
  rw [if_neg h2, if_neg h2]
  have : (fun kb : List Nat × Blk R => (do
      let sz ← blockSizes t kb.1
      let b ← reshapeBlk (newShapeLoop (0 :: cuts ++ [t.shape.length]) 0 0 sz (List.replicate (groupBounds cuts t.shape.length).length 1)) kb.2
      .ok ((groupBounds cuts t.shape.length).map (fun ab => (flattenLoop (slice ab (secCounts t.shape)) (slice ab kb.1)).1), b) : Res (List Nat × Blk R))) =
      reOne t.shape cuts := by
    funext kb
    unfold reOne blockSizes
    simp only [bind, Except.bind]
    rcases blockProps t.shape kb.1 with e | q <;> rfl
  rw [← this]

theorem reshape_map {R S : Type} [AddCommMonoid G] [DecidableEq G] (g : R → S) (t : BT G R) (cuts : List Nat) :
    reshape (mapBlocks g t) cuts = (reshape t cuts).map (mapBlocks g) := by
  rw [reshape_eq', reshape_eq']
  show (if t.shape = [] then _ else _) = _
  by_cases h1 : t.shape = []
  · rw [if_pos h1, if_pos h1]; rfl
  rw [if_neg h1, if_neg h1]
  show (if ¬ (groupBounds cuts t.shape.length).all (fun ab => decide (ab.1 ≤ ab.2 ∧ ab.2 ≤ t.shape.length)) = true then _ else _) = _
  by_cases h2 : ¬ (groupBounds cuts t.shape.length).all (fun ab => decide (ab.1 ≤ ab.2 ∧ ab.2 ≤ t.shape.length)) = true
  · rw [if_pos h2, if_pos h2]; rfl
  rw [if_neg h2, if_neg h2]
  show ((groupBounds cuts t.shape.length).mapM (fun ab => fuseDim (slice ab t.shape)) >>= fun sh =>
        (t.blocks.map fun kb => (kb.1, onBlk g kb.2)).mapM (reOne t.shape cuts) >>= fun bl => mkChecked sh t.rule (sortKeys bl)) = _
  rw [mapM_map_res (reOne t.shape cuts) (reOne t.shape cuts) (fun kb => (kb.1, onBlk g kb.2)) (fun kb => (kb.1, onBlk g kb.2))
    (reOne_map g t.shape cuts)]
  rcases (groupBounds cuts t.shape.length).mapM (fun ab => fuseDim (slice ab t.shape)) with e | sh
  · rfl
  rcases t.blocks.mapM (reOne t.shape cuts) with e | bl
  · rfl
  show mkChecked sh t.rule (sortKeys (bl.map fun kb => (kb.1, onBlk g kb.2))) = (mkChecked sh t.rule (sortKeys bl)).map (mapBlocks g)
  rw [sortKeys_map, mkChecked_map]

/-! ### Singular values -/

/-- The factors with their types. -/
def tagged (dflt : Bool) (o : DT) (f : BT G ℂ × BT G ℂ × BT G ℂ) : TT G × TT G × TT G :=
  (⟨f.1, promote o (.real dflt), fun _ => .real dflt⟩, ⟨f.2.1, promote o (.real dflt), fun _ => .real dflt⟩,
    ⟨f.2.2, promote o (.real dflt), fun _ => .real dflt⟩)

theorem svdT_eq [AddCommGroup G] [LinearOrder G] (dflt : Bool) (fac : Blk ℂ → Blk ℂ × Blk ℂ × Blk ℂ) (x : TT G) (split : Nat) :
    svdT dflt fac x split = (svdSplit fac (mapBlocks (cast (.real dflt)) x.t) split).map (tagged dflt x.opt) := by
  unfold svdT svdSplit
  have hn : (mapBlocks (cast (.real dflt)) x.t).shape = x.t.shape := rfl
  have hsf : ∀ ds, shapeFrom (mapBlocks (cast (.real dflt)) x.t) ds = shapeFrom x.t ds := fun _ => rfl
  simp only [reshape_map, hn, hsf, svdFullT]
  rcases reshape x.t [split] with e | r
  · rfl
  simp only [bind, Except.bind, Except.map]
  rcases svdFull fac (mapBlocks (cast (.real dflt)) r) true with e | ⟨ru, d, rv⟩
  · rfl
  simp only
  rcases shapeFrom x.t (List.replicate split (-1) ++ List.replicate (x.t.shape.length - split) 0) with e | su
  · rfl
  simp only
  rcases shapeFrom ru [0, -1] with e | ru'
  · rfl
  simp only
  rcases shapeFromList [su, ru'] with e | u
  · rfl
  simp only
  rcases reshapeAs false ru u with e | u'
  · rfl
  simp only
  rcases shapeFrom x.t (List.replicate split 0 ++ List.replicate (x.t.shape.length - split) (-1)) with e | sv
  · rfl
  simp only
  rcases shapeFrom rv [0, -1] with e | rv'
  · rfl
  simp only
  rcases shapeFromList [inverseCvals sv, rv'] with e | v
  · rfl
  simp only
  rcases reshapeAs false rv v with e | v'
  · rfl
  rfl

theorem entry_real [AddCommGroup G] [DecidableEq G] (dflt : Bool) (t : BT G ℂ) (e : List Nat) :
    entry (mapBlocks (cast (.real dflt)) t).shape (mapBlocks (cast (.real dflt)) t).blocks e = ((entry t.shape t.blocks e).re : ℂ) := by
  rw [entry_mapBlocks _ (cast_zero _)]
  rfl

theorem mapBlocks_ne_nil {R S : Type} (g : R → S) {t : BT G R} (h : t.blocks ≠ []) : (mapBlocks g t).blocks ≠ [] := by
  intro h'
  exact h (List.map_eq_nil_iff.1 h')

/-- **C110**, exactly: whatever the type of a tensor, the product of the factors of `svd(tensor, split)` is its real part. -/
theorem C110_svd_exact [AddCommGroup G] [LinearOrder G] (dflt : Bool) (fac : Blk ℂ → Blk ℂ × Blk ℂ × Blk ℂ) (hfac : SvdSizes fac)
    (hprod : SvdProduct fac) (horth : SvdOrtho fac) (x : TT G) (ds1 ds2 : Shape G) (hs : x.t.shape = ds1 ++ ds2) (h1 : ds1 ≠ [])
    (h2 : ds2 ≠ []) (hc : Conserving x.t.shape x.t.rule x.t.blocks) (hz : ∀ d ∈ x.t.shape, 0 < dimSize d) (hb : x.t.blocks ≠ []) :
    ∃ u d v b, svdT dflt fac x ds1.length = .ok (u, d, v) ∧
      (u.t.shape = ds1 ++ [b] ∧ d.t.shape = neutralised [b] ∧ v.t.shape = ds2.map flipped ++ [b]) ∧
      (∀ k, u.ty k = .real dflt ∧ d.ty k = .real dflt ∧ v.ty k = .real dflt) ∧
      d.opt = promote x.opt (.real dflt) ∧
      ∀ e1 e2, InRange e1 (ds1.map dimSize) → InRange e2 (ds2.map dimSize) →
        ∑ k ∈ range (dimSize b), entry u.t.shape u.t.blocks (e1 ++ [k]) * entry d.t.shape d.t.blocks [k] *
          star (entry v.t.shape v.t.blocks (e2 ++ [k])) = ((entry x.t.shape x.t.blocks (e1 ++ e2)).re : ℂ) := by
  obtain ⟨u, d, v, b, e, ⟨hu, -⟩, ⟨hd, -⟩, ⟨hv, -⟩, -, hp, -⟩ := C79_split_partial fac hfac hprod horth
    (mapBlocks (cast (.real dflt)) x.t) ds1 ds2 hs h1 h2 (BN.conserving_mapBlocks _ hc) hz (mapBlocks_ne_nil _ hb)
  refine ⟨_, _, _, b, by rw [svdT_eq, e]; rfl, ⟨hu, hd, hv⟩, fun _ => ⟨rfl, rfl, rfl⟩, rfl, ?_⟩
  intro e1 e2 he1 he2
  rw [← entry_real dflt]
  exact (hp e1 e2 he1 he2).symm

/-- **C110.**  The product of the factors of `svd(tensor, split)` is the tensor, if its entries are real. -/
theorem C110_svd_partial [AddCommGroup G] [LinearOrder G] (dflt : Bool) (fac : Blk ℂ → Blk ℂ × Blk ℂ × Blk ℂ) (hfac : SvdSizes fac)
    (hprod : SvdProduct fac) (horth : SvdOrtho fac) (x : TT G) (ds1 ds2 : Shape G) (hs : x.t.shape = ds1 ++ ds2) (h1 : ds1 ≠ [])
    (h2 : ds2 ≠ []) (hc : Conserving x.t.shape x.t.rule x.t.blocks) (hz : ∀ d ∈ x.t.shape, 0 < dimSize d) (hb : x.t.blocks ≠ [])
    (hre : ∀ e, InRange e (x.t.shape.map dimSize) → (entry x.t.shape x.t.blocks e).im = 0) :
    ∃ u d v b, svdT dflt fac x ds1.length = .ok (u, d, v) ∧
      (u.t.shape = ds1 ++ [b] ∧ d.t.shape = neutralised [b] ∧ v.t.shape = ds2.map flipped ++ [b]) ∧
      ∀ e1 e2, InRange e1 (ds1.map dimSize) → InRange e2 (ds2.map dimSize) →
        ∑ k ∈ range (dimSize b), entry u.t.shape u.t.blocks (e1 ++ [k]) * entry d.t.shape d.t.blocks [k] *
          star (entry v.t.shape v.t.blocks (e2 ++ [k])) = entry x.t.shape x.t.blocks (e1 ++ e2) := by
  obtain ⟨u, d, v, b, e, hsh, -, -, hp⟩ := C110_svd_exact dflt fac hfac hprod horth x ds1 ds2 hs h1 h2 hc hz hb
  refine ⟨u, d, v, b, e, hsh, fun e1 e2 he1 he2 => ?_⟩
  rw [hp e1 e2 he1 he2]
  have h0 := hre (e1 ++ e2) (by rw [hs, List.map_append]; exact List.rel_append he1 he2)
  apply Complex.ext
  · simp
  · simp [h0]

/-- **C110 fails** for complex tensors: at every entry that is not real, the product of the factors is another number. -/
theorem C110_svd_fails [AddCommGroup G] [LinearOrder G] (dflt : Bool) (fac : Blk ℂ → Blk ℂ × Blk ℂ × Blk ℂ) (hfac : SvdSizes fac)
    (hprod : SvdProduct fac) (horth : SvdOrtho fac) (x : TT G) (ds1 ds2 : Shape G) (hs : x.t.shape = ds1 ++ ds2) (h1 : ds1 ≠ [])
    (h2 : ds2 ≠ []) (hc : Conserving x.t.shape x.t.rule x.t.blocks) (hz : ∀ d ∈ x.t.shape, 0 < dimSize d) (hb : x.t.blocks ≠ []) :
    ∃ u d v b, svdT dflt fac x ds1.length = .ok (u, d, v) ∧
      (u.t.shape = ds1 ++ [b] ∧ d.t.shape = neutralised [b] ∧ v.t.shape = ds2.map flipped ++ [b]) ∧
      ∀ e1 e2, InRange e1 (ds1.map dimSize) → InRange e2 (ds2.map dimSize) → (entry x.t.shape x.t.blocks (e1 ++ e2)).im ≠ 0 →
        ∑ k ∈ range (dimSize b), entry u.t.shape u.t.blocks (e1 ++ [k]) * entry d.t.shape d.t.blocks [k] *
          star (entry v.t.shape v.t.blocks (e2 ++ [k])) ≠ entry x.t.shape x.t.blocks (e1 ++ e2) := by
  obtain ⟨u, d, v, b, e, hsh, -, -, hp⟩ := C110_svd_exact dflt fac hfac hprod horth x ds1 ds2 hs h1 h2 hc hz hb
  refine ⟨u, d, v, b, e, hsh, fun e1 e2 he1 he2 him h => him ?_⟩
  rw [hp e1 e2 he1 he2] at h
  rw [← h, Complex.ofReal_im]

/-- A tensor with an entry `i` that meets the hypotheses. -/
example : ∃ fac : Blk ℂ → Blk ℂ × Blk ℂ × Blk ℂ, SvdSizes fac ∧ SvdProduct fac ∧ SvdOrtho fac ∧
    Conserving (cellT 1 Complex.I (.complex true)).t.shape (cellT 1 Complex.I (.complex true)).t.rule (cellT 1 Complex.I (.complex true)).t.blocks ∧
    (∀ d ∈ (cellT 1 Complex.I (.complex true)).t.shape, 0 < dimSize d) ∧ (cellT 1 Complex.I (.complex true)).t.blocks ≠ [] ∧
    (entry (cellT 1 Complex.I (.complex true)).t.shape (cellT 1 Complex.I (.complex true)).t.blocks ([1] ++ [1])).im ≠ 0 := by
  obtain ⟨fac, h⟩ := LA.denseSvd_exists ℂ
  refine ⟨fac, h.sizes, h.product, h.ortho, cellT_conserving 1 (by decide) _ _, ?_, by simp [cellT], ?_⟩
  · intro d hd
    have hd : d ∈ ([[(1, 0), (1, 1)], [(1, 0), (1, -1)]] : Shape ℤ) := hd
    revert d
    decide
  · rw [show [1] ++ [1] = [1, 1] from rfl, cellT_entry 1 (by decide), Complex.I_im]
    exact one_ne_zero

/-! ### Truncation -/

/-- **C110 fails** for truncated decompositions of complex tensors: `svd(tensor, split, tol, min, max, pow)` throws for every tensor
that declares a complex type, whatever its entries. -/
theorem C110_cut_fails [AddCommGroup G] [LinearOrder G] (dflt : Bool) (fac : Blk ℂ → Blk ℂ × Blk ℂ × Blk ℂ) (hfac : SvdSizes fac)
    (hprod : SvdProduct fac) (horth : SvdOrtho fac) (eps : Bool → ℝ) (x : TT G) (hx : isComplex x.opt = true) (ds1 ds2 : Shape G)
    (hs : x.t.shape = ds1 ++ ds2) (h1 : ds1 ≠ []) (h2 : ds2 ≠ []) (hc : Conserving x.t.shape x.t.rule x.t.blocks)
    (hz : ∀ d ∈ x.t.shape, 0 < dimSize d) (hb : x.t.blocks ≠ []) (tol : ℝ) (minS maxS : Nat) (pw : ℝ → ℝ) :
    svdCutT dflt fac eps x ds1.length tol minS maxS pw = Res.throw .invalidArgument := by
  obtain ⟨u, d, v, b, e, -, -, ho, -⟩ := C110_svd_exact dflt fac hfac hprod horth x ds1 ds2 hs h1 h2 hc hz hb
  unfold svdCutT
  rw [e]
  simp only [bind, Except.bind, ho]
  rcases hxo : x.opt with l | l | l
  · rw [hxo] at hx; cases hx
  · rw [hxo] at hx; cases hx
  · rfl

theorem epsilonOf_real (eps : Bool → ℝ) (a : DT) (ha : isComplex a = false) (dflt : Bool) : ∃ e, epsilonOf eps (promote a (.real dflt)) = .ok e := by
  rcases a with l | l | l
  · exact ⟨_, rfl⟩
  · exact ⟨_, rfl⟩
  · cases ha

/-- **C110.**  For a tensor of a real type with an entry that is not zero, the truncated decomposition returns, the squared distance
between the tensor and the product of the factors is the sum of the squares of the values below some threshold, and no sum of as
many products is nearer. -/
theorem C110_cut_partial [AddCommGroup G] [LinearOrder G] (dflt : Bool) (fac : Blk ℂ → Blk ℂ × Blk ℂ × Blk ℂ) (hfac : DenseSvd fac)
    (eps : Bool → ℝ) (x : TT G) (hx : isComplex x.opt = false) (ds1 ds2 : Shape G) (hs : x.t.shape = ds1 ++ ds2) (h1 : ds1 ≠ [])
    (h2 : ds2 ≠ []) (hc : Conserving x.t.shape x.t.rule x.t.blocks) (hz : ∀ d ∈ x.t.shape, 0 < dimSize d)
    (hre : ∀ e, InRange e (x.t.shape.map dimSize) → (entry x.t.shape x.t.blocks e).im = 0)
    (hnz : ∃ e, InRange e (x.t.shape.map dimSize) ∧ entry x.t.shape x.t.blocks e ≠ 0)
    (hsm : (ds1.map dimSize).prod < 2 ^ 63) (tol : ℝ) (htol : 0 ≤ tol) (minS maxS : Nat) (hmin : 1 ≤ minS) (pw : ℝ → ℝ)
    (hpw : ∀ x, 0 ≤ x → 0 ≤ pw x) :
    ∃ (u d v : TT G) (b : Dim G) (n : Nat) (σ : Nat → ℝ) (thr : ℝ),
      svdCutT dflt fac eps x ds1.length tol minS maxS pw = .ok (u, d, v) ∧ d.t.shape = [b] ∧ (∀ k, k < n → 0 ≤ σ k) ∧
      ∑ e ∈ configs (ds1.map dimSize), ∑ f ∈ configs (ds2.map dimSize), ‖entry x.t.shape x.t.blocks (e ++ f) - ∑ k ∈ range (dimSize b),
          entry u.t.shape u.t.blocks (e ++ [k]) * entry d.t.shape d.t.blocks [k] * star (entry v.t.shape v.t.blocks (f ++ [k]))‖ ^ 2 =
        ∑ k ∈ range n, (if thr < σ k then 0 else σ k ^ 2) ∧
      ∀ (p : Nat) (y z : List Nat → Nat → ℂ), p ≤ (((List.range n).map σ).filter fun s => decide (thr < s)).length →
        ∑ k ∈ range n, (if thr < σ k then 0 else σ k ^ 2) ≤
          ∑ e ∈ configs (ds1.map dimSize), ∑ f ∈ configs (ds2.map dimSize), ‖entry x.t.shape x.t.blocks (e ++ f) - terms y z p e f‖ ^ 2 := by
  have hsame : ∀ e, entry (mapBlocks (cast (.real dflt)) x.t).shape (mapBlocks (cast (.real dflt)) x.t).blocks e =
      entry x.t.shape x.t.blocks e := by
    intro e
    rw [entry_real]
    by_cases he : InRange e (x.t.shape.map dimSize)
    · exact Complex.ext (by simp) (by simp [hre e he])
    · have : locateAll x.t.shape e = none := by
        rcases hl : locateAll x.t.shape e with _ | p
        · rfl
        · exact absurd (locateAll_isSome.1 ⟨p, hl⟩) he
      simp [entry, this]
  have hb : x.t.blocks ≠ [] := by
    obtain ⟨e, -, hne⟩ := hnz
    intro hb
    apply hne
    unfold entry
    rw [hb]
    split <;> rfl
  obtain ⟨ep, hep⟩ := epsilonOf_real eps x.opt hx dflt
  obtain ⟨u, d, v, b, σ, e1, d1, hσ, hpos, hcut⟩ := BN.C68_error_split fac hfac (mapBlocks (cast (.real dflt)) x.t) ds1 ds2 hs h1 h2
    (BN.conserving_mapBlocks _ hc) hz (mapBlocks_ne_nil _ hb) hsm ep tol htol minS maxS hmin pw hpw
  obtain ⟨e0, r0, n0⟩ := hnz
  obtain ⟨u', d', v', b', thr, c1, c2, c3, c4⟩ := hcut (hpos ⟨e0, r0, by rw [hsame]; exact n0⟩)
  simp only [hsame] at c3 c4
  unfold BN.svdCutB at c1
  rw [e1] at c1
  simp only [bind, Except.bind] at c1
  rcases ht : truncateSvd (u, mapBlocks RCLike.re d, v) maxS minS tol pw ep with er | r
  · rw [ht] at c1; cases c1
  rw [ht] at c1
  cases c1
  refine ⟨⟨r.1, promote x.opt (.real dflt), fun _ => .real dflt⟩, ⟨BN.ofRealB r.2.1, promote x.opt (.real dflt), fun _ => .real dflt⟩,
    ⟨r.2.2, promote x.opt (.real dflt), fun _ => .real dflt⟩, b', dimSize b, σ, thr, ?_, c2, fun k hk => (hσ k hk).1, c3, c4⟩
  · unfold svdCutT
    rw [svdT_eq, e1]
    simp only [bind, Except.bind, Except.map, tagged, hep, ht]

/-- A real tensor meets the hypotheses. -/
example : ∃ fac : Blk ℂ → Blk ℂ × Blk ℂ × Blk ℂ, DenseSvd fac ∧ isComplex (cellT 1 2 (.real true)).opt = false ∧
    (∀ e, InRange e ((cellT 1 2 (.real true)).t.shape.map dimSize) →
      (entry (cellT 1 2 (.real true)).t.shape (cellT 1 2 (.real true)).t.blocks e).im = 0) ∧
    ∃ e, InRange e ((cellT 1 2 (.real true)).t.shape.map dimSize) ∧
      entry (cellT 1 2 (.real true)).t.shape (cellT 1 2 (.real true)).t.blocks e ≠ 0 := by
  obtain ⟨fac, h⟩ := LA.denseSvd_exists ℂ
  refine ⟨fac, h, rfl, fun e he => (cellT_ofType 1 2 (.real true) (by simp [ValueOf])).values e he, [1, 1], cellT_inRange 1 (by decide) _ _, ?_⟩
  rw [cellT_entry 1 (by decide)]
  norm_num

/-! ### Eigenvalues -/

/-- **C110**, exactly: for a tensor whose real part is symmetric, the product of the factors of `eigh` is the real part. -/
theorem C110_eigh_exact [AddCommGroup G] [LinearOrder G] (dflt : Bool) (fac : Blk ℂ → Blk ℂ × Blk ℂ) (hfac : EighSizes fac) (hprod : EighProduct fac)
    (t : BT G ℂ) (lead : Shape G) (dr dc : Dim G) (hs : t.shape = lead ++ [dr, dc])
    (hc : Conserving t.shape t.rule t.blocks) (hz : ∀ d ∈ t.shape, 0 < dimSize d)
    (n0 : Nat) (c0 : G) (h0 : dc[0]? = some (n0, c0)) (hrule : chargeAt dc 0 + c0 = 0)
    (hst : ∀ k, Allowed t.shape t.rule k → lookup t.blocks k ≠ none) (hlen : dr.length = dc.length)
    (hdiag : ∀ o secs, sections lead o = some secs → ∀ (i : Nat) (x y : Nat × G), dr[i]? = some x → dc[i]? = some y →
      x.1 = y.1 ∧ charge secs + x.2 + y.2 = t.rule)
    (hherm : ∀ e x y, InRange e (lead.map dimSize) → x < dimSize dr → y < dimSize dr →
      entry t.shape t.blocks (e ++ [x, y]) = star (entry t.shape t.blocks (e ++ [y, x]))) :
    ∃ d u r, eighFullT dflt fac t = .ok (d, u) ∧ u.shape = lead ++ [dr, r] ∧ d.shape = neutralised (lead ++ [r]) ∧
      ∀ e x y, InRange e (lead.map dimSize) → x < dimSize dr → y < dimSize dr →
        ∑ k ∈ range (dimSize r), entry u.shape u.blocks (e ++ [x, k]) * entry d.shape d.blocks (e ++ [k]) *
          star (entry u.shape u.blocks (e ++ [y, k])) = ((entry t.shape t.blocks (e ++ [x, y])).re : ℂ) := by
  obtain ⟨d, u, r, e1, e2, e3, e4⟩ := C67_product_partial fac hfac hprod (mapBlocks (cast (.real dflt)) t) lead dr dc hs
    (BN.conserving_mapBlocks _ hc) hz n0 c0 h0 hrule
    (by
      intro k hk hl
      have hl' : lookup t.blocks k = none := by
        by_contra hne
        obtain ⟨b, hb⟩ := Option.ne_none_iff_exists'.1 hne
        have hm := mem_of_lookup hb
        have := lookup_of_mem (BN.conserving_mapBlocks (cast (.real dflt)) hc).sorted (List.mem_map.2 ⟨_, hm, rfl⟩)
        rw [hl] at this
        cases this
      exact hst k hk hl')
    hlen hdiag
    (by
      intro e x y he hx hy
      rw [entry_real, entry_real, hherm e x y he hx hy]
      simp)
  refine ⟨d, u, r, e1, e2, e3, fun e x y he hx hy => ?_⟩
  rw [← entry_real dflt]
  exact (e4 e x y he hx hy).symm

/-- **C110.**  The product of the factors of `eigh` is the tensor, if it is real and symmetric. -/
theorem C110_eigh_partial [AddCommGroup G] [LinearOrder G] (dflt : Bool) (fac : Blk ℂ → Blk ℂ × Blk ℂ) (hfac : EighSizes fac) (hprod : EighProduct fac)
    (t : BT G ℂ) (lead : Shape G) (dr dc : Dim G) (hs : t.shape = lead ++ [dr, dc])
    (hc : Conserving t.shape t.rule t.blocks) (hz : ∀ d ∈ t.shape, 0 < dimSize d)
    (n0 : Nat) (c0 : G) (h0 : dc[0]? = some (n0, c0)) (hrule : chargeAt dc 0 + c0 = 0)
    (hst : ∀ k, Allowed t.shape t.rule k → lookup t.blocks k ≠ none) (hlen : dr.length = dc.length)
    (hdiag : ∀ o secs, sections lead o = some secs → ∀ (i : Nat) (x y : Nat × G), dr[i]? = some x → dc[i]? = some y →
      x.1 = y.1 ∧ charge secs + x.2 + y.2 = t.rule)
    (hherm : ∀ e x y, InRange e (lead.map dimSize) → x < dimSize dr → y < dimSize dr →
      entry t.shape t.blocks (e ++ [x, y]) = entry t.shape t.blocks (e ++ [y, x]) ∧ (entry t.shape t.blocks (e ++ [x, y])).im = 0) :
    ∃ d u r, eighFullT dflt fac t = .ok (d, u) ∧ u.shape = lead ++ [dr, r] ∧ d.shape = neutralised (lead ++ [r]) ∧
      ∀ e x y, InRange e (lead.map dimSize) → x < dimSize dr → y < dimSize dr →
        ∑ k ∈ range (dimSize r), entry u.shape u.blocks (e ++ [x, k]) * entry d.shape d.blocks (e ++ [k]) *
          star (entry u.shape u.blocks (e ++ [y, k])) = entry t.shape t.blocks (e ++ [x, y]) := by
  obtain ⟨d, u, r, e1, e2, e3, e4⟩ := C110_eigh_exact dflt fac hfac hprod t lead dr dc hs hc hz n0 c0 h0 hrule hst hlen hdiag
    (by
      intro e x y he hx hy
      rw [(hherm e x y he hx hy).1]
      exact Complex.ext (by simp) (by simp [(hherm e y x he hy hx).2]))
  refine ⟨d, u, r, e1, e2, e3, fun e x y he hx hy => ?_⟩
  rw [e4 e x y he hx hy]
  exact Complex.ext (by simp) (by simp [(hherm e x y he hx hy).2])

/-- **C110 fails** for `eigh` of hermitian tensors that are not real. -/
theorem C110_eigh_fails [AddCommGroup G] [LinearOrder G] (dflt : Bool) (fac : Blk ℂ → Blk ℂ × Blk ℂ) (hfac : EighSizes fac) (hprod : EighProduct fac)
    (t : BT G ℂ) (lead : Shape G) (dr dc : Dim G) (hs : t.shape = lead ++ [dr, dc])
    (hc : Conserving t.shape t.rule t.blocks) (hz : ∀ d ∈ t.shape, 0 < dimSize d)
    (n0 : Nat) (c0 : G) (h0 : dc[0]? = some (n0, c0)) (hrule : chargeAt dc 0 + c0 = 0)
    (hst : ∀ k, Allowed t.shape t.rule k → lookup t.blocks k ≠ none) (hlen : dr.length = dc.length)
    (hdiag : ∀ o secs, sections lead o = some secs → ∀ (i : Nat) (x y : Nat × G), dr[i]? = some x → dc[i]? = some y →
      x.1 = y.1 ∧ charge secs + x.2 + y.2 = t.rule)
    (hherm : ∀ e x y, InRange e (lead.map dimSize) → x < dimSize dr → y < dimSize dr →
      entry t.shape t.blocks (e ++ [x, y]) = star (entry t.shape t.blocks (e ++ [y, x]))) :
    ∃ d u r, eighFullT dflt fac t = .ok (d, u) ∧ u.shape = lead ++ [dr, r] ∧ d.shape = neutralised (lead ++ [r]) ∧
      ∀ e x y, InRange e (lead.map dimSize) → x < dimSize dr → y < dimSize dr →
        (entry t.shape t.blocks (e ++ [x, y])).im ≠ 0 →
        ∑ k ∈ range (dimSize r), entry u.shape u.blocks (e ++ [x, k]) * entry d.shape d.blocks (e ++ [k]) *
          star (entry u.shape u.blocks (e ++ [y, k])) ≠ entry t.shape t.blocks (e ++ [x, y]) := by
  obtain ⟨d, u, r, e1, e2, e3, e4⟩ := C110_eigh_exact dflt fac hfac hprod t lead dr dc hs hc hz n0 c0 h0 hrule hst hlen hdiag hherm
  refine ⟨d, u, r, e1, e2, e3, fun e x y he hx hy him h => him ?_⟩
  rw [e4 e x y he hx hy] at h
  rw [← h, Complex.ofReal_im]

/-- The Pauli matrix `σʸ` without charges meets the hypotheses. -/
example : ∃ fac : Blk ℂ → Blk ℂ × Blk ℂ, EighSizes fac ∧ EighProduct fac ∧ ∃ t : BT ℤ ℂ, t.shape = [] ++ [[(2, 0)], [(2, 0)]] ∧
    Conserving t.shape t.rule t.blocks ∧ (∀ k, Allowed t.shape t.rule k → lookup t.blocks k ≠ none) ∧
    (∀ x y, x < 2 → y < 2 → entry t.shape t.blocks [x, y] = star (entry t.shape t.blocks [y, x])) ∧
    (entry t.shape t.blocks [1, 0]).im ≠ 0 := by
  obtain ⟨fac, h1, h2, -⟩ := dense_eigh_exists ℂ
  refine ⟨fac, h1, h2, ⟨[[(2, 0)], [(2, 0)]], 0, [([0, 0], ⟨[2, 2], fun o => if o = [1, 0] then Complex.I else if o = [0, 1] then -Complex.I else 0⟩)]⟩,
    rfl, ⟨by unfold Sorted; simp, ?_⟩, ?_, ?_, ?_⟩
  · intro k b h
    simp only [List.mem_singleton, Prod.mk.injEq] at h
    obtain ⟨rfl, rfl⟩ := h
    exact ⟨[(2, 0), (2, 0)], rfl, rfl, rfl⟩
  · rintro k ⟨secs, hs, -⟩
    have : k = [0, 0] := by
      rcases k with _ | ⟨a, _ | ⟨b, _ | ⟨c, l⟩⟩⟩
      · cases hs
      · rcases a with _ | a <;> cases hs
      · rcases a with _ | a
        · rcases b with _ | b
          · rfl
          · cases hs
        · cases hs
      · rcases a with _ | a
        · rcases b with _ | b <;> cases hs
        · cases hs
    subst this
    simp [lookup]
  · intro x y hx hy
    have e00 : locateAll ([[(2, 0)], [(2, 0)]] : Shape ℤ) [0, 0] = some ([0, 0], [0, 0]) := rfl
    have e01 : locateAll ([[(2, 0)], [(2, 0)]] : Shape ℤ) [0, 1] = some ([0, 0], [0, 1]) := rfl
    have e10 : locateAll ([[(2, 0)], [(2, 0)]] : Shape ℤ) [1, 0] = some ([0, 0], [1, 0]) := rfl
    have e11 : locateAll ([[(2, 0)], [(2, 0)]] : Shape ℤ) [1, 1] = some ([0, 0], [1, 1]) := rfl
    rcases x with _ | _ | x
    · rcases y with _ | _ | y
      · simp [entry, e00, lookup]
      · simp [entry, e01, e10, lookup]
      · omega
    · rcases y with _ | _ | y
      · simp [entry, e01, e10, lookup]
      · simp [entry, e11, lookup]
      · omega
    · omega
  · have e10 : locateAll ([[(2, 0)], [(2, 0)]] : Shape ℤ) [1, 0] = some ([0, 0], [1, 0]) := rfl
    simp [entry, e10, lookup]

/-! ### What the types of the factors do next -/

/-- **C110 fails** for what a sweep does next: the factors of `svd` are stored in the default type, so that a contraction of one of them with a
tensor stored in another type throws as soon as there is a block to compute. -/
theorem C110_contract_fails [AddCommGroup G] [LinearOrder G] (dflt : Bool) (fac : Blk ℂ → Blk ℂ × Blk ℂ × Blk ℂ) (x : TT G) (split : Nat)
    (u d v y : TT G) (hsvd : svdT dflt fac x split = .ok (u, d, v)) (b : DT) (hb : b ≠ .real dflt) (hy : ∀ k, y.ty k = b) (da db : List Nat)
    (k k' : List Nat) (m m' : Blk ℂ) (hk : (k, m) ∈ y.t.blocks) (hk' : (k', m') ∈ u.t.blocks)
    (hm : da.map (fun i => k.getD i 0) = db.map (fun i => k'.getD i 0)) (fuel : Nat) (r : BT G ℂ)
    (hr : tensordot fuel y.t u.t da db = some (.ok r)) :
    tensordotT fuel y u da db = some (Res.throw .runtimeError) := by
  refine C111_tensordot_fails y u da db fuel r hr k k' m m' hk hk' hm ?_
  rw [hy]
  rw [svdT_eq] at hsvd
  rcases hf : svdSplit fac (mapBlocks (cast (.real dflt)) x.t) split with e | f
  · rw [hf] at hsvd; cases hsvd
  · rw [hf] at hsvd
    cases hsvd
    exact hb

end QuantiT.TY
