import Verif.Props.Linalg
import Verif.Props.Identity
/-
The factors of a singular value decomposition.
-/
namespace QuantiT
namespace BT
open Spec
variable {G R : Type}

/-! ### Assigning blocks -/

theorem assignAll_eq [AddCommMonoid G] [DecidableEq G] [Zero R] : ∀ (l : List (List Nat × Blk R)) (t : BT G R), Sorted t.blocks →
    (∀ kv ∈ l, Allowed t.shape t.rule kv.1) →
    ∃ m, assignAll t l = .ok { t with blocks := m } ∧ Sorted m ∧ ∀ x, lookup m x = (lookup l.reverse x).or (lookup t.blocks x)
  | [], t, hs, _ => ⟨t.blocks, rfl, hs, by simp [lookup_nil]⟩
  | (k, v) :: l, t, hs, h => by
    obtain ⟨i1, i2⟩ := indexAssign_eq hs undef k v
    obtain ⟨m, m1, m2, m3⟩ := assignAll_eq l { t with blocks := FM.indexAssign undef t.blocks k v } i1
      (fun kv hkv => h kv (by simp [hkv]))
    refine ⟨m, ?_, m2, ?_⟩
    · unfold assignAll at m1 ⊢
      rw [List.foldlM_cons, blockAssign_eq v (h (k, v) (by simp))]
      exact m1
    · intro x
      rw [m3, i2, List.reverse_cons, lookup_append, lookup_cons]
      by_cases hx : x = k
      · subst hx
        rcases lookup l.reverse x with _ | b <;> simp
      · have : ¬ k = x := fun h => hx h.symm
        rcases lookup l.reverse x with _ | b <;> simp [hx, this, lookup_nil]

theorem lookup_functional {l : List (List Nat × Blk R)} {k : List Nat} (h : ∀ b b', (k, b) ∈ l → (k, b') ∈ l → b = b') {b : Blk R} :
    lookup l k = some b ↔ (k, b) ∈ l := by
  constructor
  · exact mem_of_lookup
  · intro hb
    obtain ⟨v, hv⟩ := lookup_isSome_iff.2 ⟨_, hb, rfl⟩
    rw [hv, h b v hb (mem_of_lookup hv)]

/-- Assigning undefined blocks and then the values. -/
theorem assignTwice [AddCommMonoid G] [DecidableEq G] [Zero R] (sh : Shape G) (rule : G) (vs : List (List Nat × Blk R))
    (hf : ∀ k b b', (k, b) ∈ vs → (k, b') ∈ vs → b = b') (ha : ∀ kv ∈ vs, Allowed sh rule kv.1) :
    ∃ m, assignAll (⟨sh, rule, []⟩ : BT G R) (vs.map (fun p => (p.1, undef)) ++ vs) = .ok ⟨sh, rule, m⟩ ∧ Sorted m ∧
      ∀ k b, lookup m k = some b ↔ (k, b) ∈ vs := by
  obtain ⟨m, m1, m2, m3⟩ := assignAll_eq (vs.map (fun p => (p.1, undef)) ++ vs) (⟨sh, rule, []⟩ : BT G R) List.Pairwise.nil (by
    intro kv hkv
    rcases List.mem_append.1 hkv with h | h
    · obtain ⟨p, p1, rfl⟩ := List.mem_map.1 h
      exact ha p p1
    · exact ha kv h)
  refine ⟨m, m1, m2, ?_⟩
  intro k b
  rw [m3, List.reverse_append, lookup_append]
  simp only [lookup_nil, Option.or_none]
  have hr : ∀ b, lookup vs.reverse k = some b ↔ (k, b) ∈ vs := by
    intro b
    rw [lookup_functional (fun b b' h h' => hf k b b' (by simpa using h) (by simpa using h'))]
    simp
  rcases hv : lookup vs.reverse k with _ | b'
  · simp only [Option.none_or]
    constructor
    · intro h
      exfalso
      have hm := mem_of_lookup h
      simp only [List.mem_reverse, List.mem_map, Prod.mk.injEq] at hm
      obtain ⟨p, p1, p2, _⟩ := hm
      have := (hr p.2).2 (by rw [← p2]; exact p1)
      rw [hv] at this
      cases this
    · intro h
      rw [(hr b).2 h] at hv
      cases hv
  · simp only [Option.some_or, Option.some.injEq]
    constructor
    · rintro rfl
      exact (hr b').1 hv
    · intro h
      have := (hr b).2 h
      rw [hv] at this
      exact Option.some.inj this

/-- The second pass of `factorBlocks`. -/
def factorVals (gs : List (Mat R × Blk R)) (spans : Mat R → List Span) : List (List Nat × Blk R) :=
  (gs.zip (List.range gs.length)).flatMap fun p => (spans p.1.1).map fun s => (p.1.1.other ++ [s.1, p.2], rowsOf p.1.2 s.2)

theorem factorBlocks_eq [Zero R] (gs : List (Mat R × Blk R)) (spans : Mat R → List Span) :
    factorBlocks gs spans = (factorVals gs spans).map (fun p => (p.1, undef)) ++ factorVals gs spans := by
  unfold factorBlocks factorVals
  simp only [List.map_flatMap, List.map_map, Function.comp_def]

theorem zip_range_mem {α : Type} {l : List α} {p : α × Nat} : p ∈ l.zip (List.range l.length) ↔ l[p.2]? = some p.1 := by
  rw [List.mem_iff_getElem?]
  constructor
  · rintro ⟨i, hi⟩
    rw [List.getElem?_zip_eq_some] at hi
    obtain ⟨h1, h2⟩ := hi
    rw [List.getElem?_range (by simpa using (List.getElem?_eq_some_iff.1 h2).1)] at h2
    cases h2
    exact h1
  · intro h
    refine ⟨p.2, ?_⟩
    rw [List.getElem?_zip_eq_some]
    exact ⟨h, List.getElem?_range (List.getElem?_eq_some_iff.1 h).1⟩

theorem mem_factorVals {gs : List (Mat R)} {F : Mat R → Blk R} {spans : Mat R → List Span} {k : List Nat} {b : Blk R} :
    (k, b) ∈ factorVals (gs.map fun g => (g, F g)) spans ↔
      ∃ n g, gs[n]? = some g ∧ ∃ s ∈ spans g, k = g.other ++ [s.1, n] ∧ b = rowsOf (F g) s.2 := by
  unfold factorVals
  simp only [List.mem_flatMap, zip_range_mem, List.mem_map, Prod.mk.injEq, List.getElem?_map, Option.map_eq_some_iff]
  constructor
  · rintro ⟨⟨⟨g, f⟩, n⟩, ⟨g', h1, h2⟩, s, s1, s2, s3⟩
    simp only [Prod.mk.injEq] at h1 h2 s1 s2 s3
    obtain ⟨rfl, rfl⟩ := h2
    exact ⟨n, g', h1, s, s1, s2.symm, s3.symm⟩
  · rintro ⟨n, g, h1, s, s1, s2, s3⟩
    exact ⟨⟨⟨g, F g⟩, n⟩, ⟨g, h1, rfl⟩, s, s1, s2.symm, s3.symm⟩

/-- The second pass of `diagBlocks`. -/
def diagVals (gs : List (Mat R × Blk R)) : List (List Nat × Blk R) :=
  (gs.zip (List.range gs.length)).map fun p => (p.1.1.other ++ [p.2], p.1.2)

theorem diagBlocks_eq [Zero R] (gs : List (Mat R × Blk R)) : diagBlocks gs = (diagVals gs).map (fun p => (p.1, undef)) ++ diagVals gs := by
  unfold diagBlocks diagVals
  simp only [List.map_map, Function.comp_def]

theorem mem_diagVals {gs : List (Mat R)} {F : Mat R → Blk R} {k : List Nat} {b : Blk R} :
    (k, b) ∈ diagVals (gs.map fun g => (g, F g)) ↔ ∃ n g, gs[n]? = some g ∧ k = g.other ++ [n] ∧ b = F g := by
  unfold diagVals
  simp only [List.mem_map, zip_range_mem, Prod.mk.injEq, List.getElem?_map, Option.map_eq_some_iff]
  constructor
  · rintro ⟨⟨⟨g, f⟩, n⟩, ⟨g', h1, h2⟩, s1, s2⟩
    simp only [Prod.mk.injEq] at h1 h2 s1 s2
    obtain ⟨rfl, rfl⟩ := h2
    exact ⟨n, g', h1, s1.symm, s2.symm⟩
  · rintro ⟨n, g, h1, s1, s2⟩
    exact ⟨⟨⟨g, F g⟩, n⟩, ⟨g, h1, rfl⟩, s1.symm, s2.symm⟩

theorem last_inj {o o' : List Nat} {i j i' j' : Nat} (h : o ++ [i, j] = o' ++ [i', j']) : o = o' ∧ i = i' ∧ j = j' := by
  have ho : o = o' := by
    have := congrArg (fun l => l.take (l.length - 2)) h
    simpa using this
  subst ho
  have := List.append_cancel_left h
  simpa using this

theorem factorVals_functional {gs : List (Mat R)} {F : Mat R → Blk R} {spans : Mat R → List Span} {d : Dim G}
    (h : ∀ g ∈ gs, ∃ n, Tiles d n (spans g)) : ∀ k b b', (k, b) ∈ factorVals (gs.map fun g => (g, F g)) spans →
      (k, b') ∈ factorVals (gs.map fun g => (g, F g)) spans → b = b' := by
  intro k b b' hb hb'
  rw [mem_factorVals] at hb hb'
  obtain ⟨n, g, h1, s, s1, s2, rfl⟩ := hb
  obtain ⟨n', g', h1', s', s1', s2', rfl⟩ := hb'
  rw [s2] at s2'
  obtain ⟨_, e1, rfl⟩ := last_inj s2'
  rw [h1] at h1'
  cases h1'
  obtain ⟨_, ht⟩ := h g (List.mem_of_getElem? h1)
  rw [span_unique ht s1 s1' e1]

theorem diagVals_functional {gs : List (Mat R)} {F : Mat R → Blk R} : ∀ k b b', (k, b) ∈ diagVals (gs.map fun g => (g, F g)) →
      (k, b') ∈ diagVals (gs.map fun g => (g, F g)) → b = b' := by
  intro k b b' hb hb'
  rw [mem_diagVals] at hb hb'
  obtain ⟨n, g, h1, s2, rfl⟩ := hb
  obtain ⟨n', g', h1', s2', rfl⟩ := hb'
  rw [s2] at s2'
  have := congrArg List.getLast? s2'
  simp only [List.getLast?_append, List.getLast?_singleton, Option.some_or, Option.some.injEq] at this
  subst this
  rw [h1] at h1'
  cases h1'
  rfl

/-! ### Shapes -/

theorem picks_replicate_neg (sh : Shape G) : Picks sh (List.replicate sh.length (-1)) ∧ kept sh (List.replicate sh.length (-1)) = sh := by
  induction sh with
  | nil => exact ⟨.nil, rfl⟩
  | cons d sh ih => exact ⟨.cons (.inl rfl) ih.1, by simp [List.replicate_succ, kept, ih.2]⟩

theorem picks_replicate_zero {sh : Shape G} (hz : ∀ d ∈ sh, 0 < dimSize d) : Picks sh (List.replicate sh.length 0) ∧
    kept sh (List.replicate sh.length 0) = [] := by
  induction sh with
  | nil => exact ⟨.nil, rfl⟩
  | cons d sh ih =>
    obtain ⟨i1, i2⟩ := ih fun d hd => hz d (by simp [hd])
    have := hz d (by simp)
    exact ⟨.cons (.inr ⟨le_refl _, by omega⟩) i1, by simp [List.replicate_succ, kept, i2]⟩

theorem picks_append {s1 s2 : Shape G} {d1 d2 : List Int} (h1 : Picks s1 d1) (h2 : Picks s2 d2) :
    Picks (s1 ++ s2) (d1 ++ d2) ∧ kept (s1 ++ s2) (d1 ++ d2) = kept s1 d1 ++ kept s2 d2 := by
  refine ⟨List.rel_append h1 h2, ?_⟩
  induction h1 with
  | nil => rfl
  | cons h _ ih =>
    simp only [List.cons_append, kept, ih]
    split <;> simp

/-- Charge of the columns of a matrix, read from its first column. -/
def qOf [Zero G] (dc : Dim G) (g : Mat R) : G := ((g.cols.head?.bind fun s => dc[s.1]?).map Prod.snd).getD 0

theorem colCharge_eq [Zero G] {lead : Shape G} {dr dc : Dim G} {g : Mat R} {q : G} (hne : g.cols ≠ [])
    (h : ∀ s ∈ g.cols, ∃ n, dc[s.1]? = some (n, q)) : colCharge (lead ++ [dr, dc]) g = .ok (qOf dc g) ∧ qOf dc g = q := by
  obtain ⟨s, l, hs⟩ := List.exists_cons_of_ne_nil hne
  obtain ⟨n, hn⟩ := h s (by simp [hs])
  unfold colCharge qOf
  have : (lead ++ [dr, dc])[(lead ++ [dr, dc]).length - 1]? = some dc := by simp
  simp [hs, hn]

/-- The sections of the new bond. -/
def bond [Zero G] (dc : Dim G) (gs : List (Mat R)) : Dim G := gs.map fun g => (min (matCols g) (matRows g), qOf dc g)

theorem matRows_eq {g : Mat R} {ld : List Nat} {nr nc : Nat} (h : g.m.dims = ld ++ [nr, nc]) : matRows g = nr ∧ matCols g = nc := by
  unfold matRows matCols
  rw [h]
  exact getD_last2 ld nr nc 0

theorem neutralised_neg [AddCommGroup G] (sh : Shape G) : (neutralised sh).map (List.map fun s => (s.1, -s.2)) = neutralised sh := by
  unfold neutralised
  simp [Function.comp_def]

theorem charge_neutral [AddCommMonoid G] (l : List (Nat × G)) : charge (l.map fun s => (s.1, (0 : G))) = 0 := by
  simp [charge, Function.comp_def]

/-- `svd(tensor, true)` block by block. -/
theorem svdFull_eq [AddCommGroup G] [LinearOrder G] [Zero R] (fac : Blk R → Blk R × Blk R × Blk R) (t : BT G R) (lead : Shape G)
    (dr dc : Dim G) (hs : t.shape = lead ++ [dr, dc]) (hc : Conserving t.shape t.rule t.blocks) (hz : ∀ d ∈ t.shape, 0 < dimSize d)
    (gs : List (Mat R)) (hgs : compactDense t = .ok gs)
    (hcol : ∀ g ∈ gs, ∃ secs nr nc p q, Collected lead dr dc t.blocks g.m g.other g.rows g.cols secs nr nc p q ∧
        charge secs + p + q = t.rule) :
    ∃ mu md mv, svdFull fac t true = .ok (⟨lead ++ [dr, bond dc gs], t.rule, mu⟩, ⟨neutralised (lead ++ [bond dc gs]), 0, md⟩,
        ⟨neutralised lead ++ [flipped dc, bond dc gs], 0, mv⟩) ∧
      (Sorted mu ∧ ∀ k b, lookup mu k = some b ↔
        ∃ n g, gs[n]? = some g ∧ ∃ s ∈ g.rows, k = g.other ++ [s.1, n] ∧ b = rowsOf (fac g.m).1 s.2) ∧
      (Sorted md ∧ ∀ k b, lookup md k = some b ↔ ∃ n g, gs[n]? = some g ∧ k = g.other ++ [n] ∧ b = (fac g.m).2.1) ∧
      (Sorted mv ∧ ∀ k b, lookup mv k = some b ↔
        ∃ n g, gs[n]? = some g ∧ ∃ s ∈ g.cols, k = g.other ++ [s.1, n] ∧ b = rowsOf (fac g.m).2.2 s.2) := by
  have hq : gs.mapM (colCharge t.shape) = .ok (gs.map (qOf dc)) := by
    refine mapM_ok fun g hg => ?_
    obtain ⟨_, _, _, _, _, h, _⟩ := hcol g hg
    rw [hs]
    exact (colCharge_eq h.nonempty.2 h.colCharge).1
  have hright : ((gs.zip (gs.map (qOf dc))).map fun p => (min (matCols p.1) (matRows p.1), p.2)) = bond dc gs := by
    unfold bond
    rw [← List.map_prod_left_eq_zip, List.map_map]
    rfl
  have hbond : ∀ {n : Nat} {g : Mat R}, gs[n]? = some g → ∃ m, (bond dc gs)[n]? = some (m, qOf dc g) := by
    intro n g h
    exact ⟨min (matCols g) (matRows g), by simp [bond, h]⟩
  have hzl : ∀ d ∈ lead, 0 < dimSize d := fun d hd => hz d (by simp [hs, hd])
  have hzr : 0 < dimSize dr := hz dr (by simp [hs])
  have hzc : 0 < dimSize dc := hz dc (by simp [hs])
  have hpop := populated_of_pos hz
  have hn : t.shape.length = lead.length + 2 := by simp [hs]
  have hr0 : Picks [dr] [0] := .cons (.inr ⟨le_refl _, by omega⟩) .nil
  have hc0 : Picks [dc] [0] := .cons (.inr ⟨le_refl _, by omega⟩) .nil
  -- the shapes
  have p0 : Picks t.shape (List.replicate (t.shape.length - 2) (-1) ++ [0, 0]) ∧
      kept t.shape (List.replicate (t.shape.length - 2) (-1) ++ [0, 0]) = lead := by
    rw [hn, hs]
    obtain ⟨h1, h2⟩ := picks_append (picks_replicate_neg lead).1 (List.rel_append hr0 hc0)
    refine ⟨h1, h2.trans ?_⟩
    rw [(picks_replicate_neg lead).2]
    simp [kept]
  have p1 : Picks t.shape (List.replicate (t.shape.length - 1) (-1) ++ [0]) ∧
      kept t.shape (List.replicate (t.shape.length - 1) (-1) ++ [0]) = lead ++ [dr] := by
    rw [hn, hs]
    obtain ⟨h1, h2⟩ := picks_append (picks_replicate_neg (lead ++ [dr])).1 hc0
    rw [(picks_replicate_neg (lead ++ [dr])).2] at h2
    simp only [List.append_assoc, List.cons_append, List.nil_append, List.length_append, List.length_cons, List.length_nil] at h1 h2
    exact ⟨h1, h2.trans (by simp [kept])⟩
  have p3 : Picks t.shape (List.replicate (t.shape.length - 1) 0 ++ [-1]) ∧
      kept t.shape (List.replicate (t.shape.length - 1) 0 ++ [-1]) = [dc] := by
    rw [hn, hs]
    have hz' : ∀ d ∈ lead ++ [dr], 0 < dimSize d := by
      intro d hd
      rcases List.mem_append.1 hd with h | h
      · exact hzl d h
      · simp at h; rw [h]; exact hzr
    obtain ⟨h1, h2⟩ := picks_append (picks_replicate_zero hz').1 (picks_replicate_neg [dc]).1
    rw [(picks_replicate_zero hz').2, (picks_replicate_neg [dc]).2] at h2
    simp only [List.append_assoc, List.cons_append, List.nil_append, List.length_append, List.length_cons, List.length_nil] at h1 h2
    exact ⟨h1, h2⟩
  -- the blocks
  have hsec2 : ∀ {a b : Dim G} {i j x y}, a[i]? = some x → b[j]? = some y → sections [a, b] [i, j] = some [x, y] := by
    intro a b i j x y h1 h2
    exact sections_cons.2 ⟨x, [y], h1, sections_cons.2 ⟨y, [], h2, rfl, rfl⟩, rfl⟩
  obtain ⟨mu, u1, u2, u3⟩ := assignTwice (lead ++ [dr, bond dc gs]) t.rule (factorVals (gs.map fun g => (g, (fac g.m).1)) Mat.rows)
    (factorVals_functional fun g hg => by obtain ⟨_, nr, _, _, _, h, _⟩ := hcol g hg; exact ⟨nr, h.rowTiles⟩) (by
      rintro ⟨k, b⟩ hkv
      obtain ⟨n, g, h1, s, s1, rfl, _⟩ := mem_factorVals.1 hkv
      obtain ⟨secs, nr, nc, p, q, h, hch⟩ := hcol g (List.mem_of_getElem? h1)
      obtain ⟨x, hx⟩ := h.rowCharge s s1
      obtain ⟨y, hy⟩ := hbond h1
      refine ⟨_, sections_append h.leads (hsec2 hx hy), ?_⟩
      rw [charge_append, ← hch, (colCharge_eq (lead := lead) (dr := dr) h.nonempty.2 h.colCharge).2]
      simp [charge, add_assoc])
  obtain ⟨mv, v1, v2, v3⟩ := assignTwice (neutralised lead ++ [dc, flipped (bond dc gs)]) 0
    (factorVals (gs.map fun g => (g, (fac g.m).2.2)) Mat.cols)
    (factorVals_functional fun g hg => by obtain ⟨_, _, nc, _, _, h, _⟩ := hcol g hg; exact ⟨nc, h.colTiles⟩) (by
      rintro ⟨k, b⟩ hkv
      obtain ⟨n, g, h1, s, s1, rfl, _⟩ := mem_factorVals.1 hkv
      obtain ⟨secs, nr, nc, p, q, h, hch⟩ := hcol g (List.mem_of_getElem? h1)
      obtain ⟨x, hx⟩ := h.colCharge s s1
      obtain ⟨y, hy⟩ := hbond h1
      have hy' : (flipped (bond dc gs))[n]? = some (y, -qOf dc g) := by simp [flipped, hy]
      refine ⟨_, sections_append (sections_mapCharge _ h.leads) (hsec2 hx hy'), ?_⟩
      rw [charge_append, charge_neutral, (colCharge_eq (lead := lead) (dr := dr) h.nonempty.2 h.colCharge).2]
      simp [charge])
  obtain ⟨md, d1, d2, d3⟩ := assignTwice (neutralised (lead ++ [bond dc gs])) 0
    (diagVals (gs.map fun g => (g, (fac g.m).2.1))) diagVals_functional (by
      rintro ⟨k, b⟩ hkv
      obtain ⟨n, g, h1, rfl, _⟩ := mem_diagVals.1 hkv
      obtain ⟨secs, nr, nc, p, q, h, hch⟩ := hcol g (List.mem_of_getElem? h1)
      obtain ⟨y, hy⟩ := hbond h1
      exact ⟨_, sections_mapCharge _ (sections_append h.leads (sections_cons.2 ⟨_, [], hy, rfl, rfl⟩)), charge_neutral _⟩)
  refine ⟨mu, md, mv, ?_, ⟨u2, fun k b => (u3 k b).trans mem_factorVals⟩, ⟨d2, fun k b => (d3 k b).trans mem_diagVals⟩,
    ⟨v2, fun k b => (v3 k b).trans mem_factorVals⟩⟩
  unfold svdFull
  simp only [hgs, hq, bind, Except.bind, if_true, hright, shapeFrom_eq p0.1 hpop, shapeFrom_eq p1.1 hpop, shapeFrom_eq p3.1 hpop, p0.2, p1.2, p3.2]
  rw [C32_shape_from_list _ (by simp), C32_shape_from_list _ (by simp)]
  simp only [neutralShape, setRule, List.length_nil, ne_eq, not_true_eq_false, if_false, List.map_cons, List.map_nil, List.flatten_cons,
    List.flatten_nil, List.append_nil, List.sum_cons, List.sum_nil, add_zero]
  rw [C32_shape_from_list _ (by simp)]
  simp only [List.length_nil, ne_eq, not_true_eq_false, if_false, List.map_cons, List.map_nil, List.flatten_cons,
    List.flatten_nil, List.append_nil, List.map_map, Function.comp_def, List.append_assoc, List.cons_append, List.nil_append]
  simp only [factorBlocks_eq, diagBlocks_eq]
  unfold neutralised flipped at v1
  unfold neutralised at d1
  rw [u1, v1]
  simp only
  rw [d1]
  simp only [inverseCvals, List.map_append, List.map_map, Function.comp_def, neg_zero, List.map_cons, List.map_nil, neg_neg, neutralised,
    flipped]
  have : List.map (fun s : Nat × G => (s.1, s.2)) (bond dc gs) = bond dc gs := by
    conv_rhs => rw [← List.map_id (bond dc gs)]
    rfl
  rw [this]

end BT
end QuantiT
