import Verif.Props.Reshape
import Verif.Props.Tensordot
import Verif.Props.View
import Verif.Props.IndexPut
import Verif.Props.Identity
import Verif.Props.Broadcast
import Verif.Props.RandomMps
/-
Each operation on block tensors, whenever it returns, keeps conserving tensors conserving (used by Props/History).
-/
namespace QuantiT
namespace BT
open Spec FM
variable {G R : Type}

theorem empty_conserving [AddCommMonoid G] (shape : Shape G) (rule : G) : Conserving shape rule ([] : FM (List Nat) (Blk R)) :=
  ⟨.nil, by intro k b h; simp at h⟩

theorem checked_conserving [AddCommMonoid G] [DecidableEq G] {shape : Shape G} {rule : G} {bl : FM (List Nat) (Blk R)} {r}
    (h : mkChecked shape rule bl = .ok r) (hs : Sorted bl) : Conserving r.shape r.rule r.blocks := by
  obtain ⟨rfl, h2⟩ := mkChecked_inv h
  exact ⟨hs, h2⟩

theorem bind_ok {α β : Type} {x : Res α} {f : α → Res β} {r : β} (h : (x >>= f) = .ok r) : ∃ a, x = .ok a ∧ f a = .ok r := by
  rcases x with e | a
  · cases h
  · exact ⟨a, rfl, h⟩

theorem orUb_ok {α : Type} {x : Option α} {a : α} (h : orUb x = .ok a) : x = some a := by
  rcases x with _ | b
  · cases h
  · simpa [orUb] using h

/-- Keys stay different under an injective renaming. -/
theorem mapM_keys {bl bl' : FM (List Nat) (Blk R)} {f : List Nat × Blk R → Res (List Nat × Blk R)} (hs : Sorted bl)
    (h : bl.mapM f = .ok bl')
    (hinj : ∀ x ∈ bl, ∀ y ∈ bl, ∀ x' y', f x = .ok x' → f y = .ok y' → x'.1 = y'.1 → x.1 = y.1) :
    (bl'.map Prod.fst).Nodup := by
  have hf := RM.mapM_forall h
  have hn := nodup_of_sorted hs
  clear h hs
  induction hf with
  | nil => simp
  | @cons x y l l' hx hf ih =>
    rw [List.map_cons, List.nodup_cons] at hn ⊢
    refine ⟨?_, ih (fun a ha b hb => hinj a (by simp [ha]) b (by simp [hb])) hn.2⟩
    intro hm
    obtain ⟨z, hz, hz2⟩ := List.mem_map.mp hm
    obtain ⟨i, hi, rfl⟩ := List.getElem_of_mem hz
    have hi' : i < l.length := by rw [hf.length_eq]; exact hi
    have hz' := (List.forall₂_iff_get.mp hf).2 i hi' hi
    have := hinj x (by simp) l[i] (by simp) y _ hx hz' hz2.symm
    exact hn.1 (this ▸ List.mem_map_of_mem (List.getElem_mem _))

variable [AddCommMonoid G] [DecidableEq G]

theorem normDims_lt {n : Nat} {inp : List Int} {p : List Nat} (h : normDims n inp = .ok p) : ∀ j ∈ p, j < n := by
  simp only [normDims] at h
  by_cases hl : n < inp.length
  · rw [if_pos hl] at h; cases h
  · rw [if_neg hl] at h
    have hf := RM.mapM_forall h
    intro j hj
    obtain ⟨i, hi, rfl⟩ := List.getElem_of_mem hj
    have := (List.forall₂_iff_get.mp hf).2 i (by rw [hf.length_eq]; exact hi) hi
    split at this <;> split at this <;> first
      | (simp only [Except.ok.injEq, List.get_eq_getElem] at this
         rename_i hh
         simp only [List.get_eq_getElem] at hh
         omega)
      | cases this

theorem permute_keeps {t r : BT G R} (hc : Conserving t.shape t.rule t.blocks) {inp : List Int} (h : permute t inp = .ok r) :
    Conserving r.shape r.rule r.blocks := by
  have h0 := h
  simp only [permute] at h
  obtain ⟨p, hn, h⟩ := bind_ok h
  obtain ⟨sh, hg, h⟩ := bind_ok h
  obtain ⟨bl, hm, h⟩ := bind_ok h
  replace hg := orUb_ok hg
  by_cases hb : t.blocks = []
  · rw [hb] at hm
    cases hm
    split at h
    · cases h
    · split at h
      · cases h
      · exact checked_conserving h (by simp [sortKeys, Sorted])
  · obtain ⟨kb, hkb⟩ := List.exists_mem_of_ne_nil _ hb
    obtain ⟨y, _, hy⟩ := mapM_ok_mem hm kb hkb
    obtain ⟨k, _, hy⟩ := bind_ok hy
    obtain ⟨b, hpb, _⟩ := bind_ok hy
    obtain ⟨secs, s1, s2, s3⟩ := hc.block kb.1 kb.2 hkb
    have hdl : kb.2.dims.length = t.shape.length := by rw [s3, List.length_map, (sections_length s1).2]
    have hp : p.Perm (List.range t.shape.length) := by
      simp only [permBlk] at hpb
      split at hpb
      · split at hpb
        · rename_i hh
          exact perm_range_of hh.1 (hh.2.trans hdl) (normDims_lt hn)
        · cases hpb
      · cases hpb
    obtain ⟨e1, e2⟩ := permute_eq hc hn hp hg
    rw [h0] at e1
    cases e1
    exact e2

theorem transpose_keeps {t r : BT G R} (hc : Conserving t.shape t.rule t.blocks) {i j : Int} (h : transpose t i j = .ok r) :
    Conserving r.shape r.rule r.blocks := by
  unfold transpose at h
  dsimp only at h
  generalize (if i < 0 then i + (t.shape.length : Int) else i) = x at h
  generalize (if j < 0 then j + (t.shape.length : Int) else j) = y at h
  split at h
  · exact permute_keeps hc h
  · cases h

/-- The groups cover the list. -/
theorem groups_cover {α : Type} (n : Nat) (l : List α) (hl : l.length = n) : ∀ (cuts : List Nat) (a : Nat),
    (∀ ab ∈ (a :: cuts).zip (cuts ++ [n]), ab.1 ≤ ab.2 ∧ ab.2 ≤ n) →
    (((a :: cuts).zip (cuts ++ [n])).map fun ab => slice ab l).flatten = l.drop a
  | [], a, h => by simp [slice, ← hl]
  | c :: cuts, a, h => by
    have ih := groups_cover n l hl cuts c (fun ab hab => h ab (by simp [hab]))
    have h1 := h (a, c) (by simp)
    simp only [List.cons_append, List.zip_cons_cons, List.map_cons, List.flatten_cons, slice]
    simp only [slice] at ih
    rw [ih]
    conv_rhs => rw [← List.take_append_drop c l, List.drop_append_of_le_length (by simp; omega)]

theorem slice_inRange {l ns : List Nat} (h : InRange l ns) (ab : Nat × Nat) : InRange (slice ab l) (slice ab ns) := by
  unfold slice InRange at *
  exact List.forall₂_drop _ (List.forall₂_take _ h)

theorem reshape_keeps {t r : BT G R} (hc : Conserving t.shape t.rule t.blocks) {cuts : List Nat} (h : reshape t cuts = .ok r) :
    Conserving r.shape r.rule r.blocks := by
  simp only [reshape] at h
  split at h
  · cases h
  split at h
  · cases h
  rename_i hall
  obtain ⟨sh, _, h⟩ := bind_ok h
  obtain ⟨bl, hm, h⟩ := bind_ok h
  refine checked_conserving h (sortKeys_sorted (mapM_keys hc.sorted hm ?_))
  intro x hx y hy x' y' fx fy hk
  obtain ⟨_, _, fx⟩ := bind_ok fx
  obtain ⟨_, _, fx⟩ := bind_ok fx
  obtain ⟨_, _, fy⟩ := bind_ok fy
  obtain ⟨_, _, fy⟩ := bind_ok fy
  cases fx; cases fy
  obtain ⟨s, s1, _⟩ := hc.block x.1 x.2 hx
  obtain ⟨s', s1', _⟩ := hc.block y.1 y.2 hy
  have hall' : ∀ ab ∈ (0 :: cuts).zip (cuts ++ [t.shape.length]), ab.1 ≤ ab.2 ∧ ab.2 ≤ t.shape.length := by
    simpa [groupBounds] using hall
  have c1 := groups_cover t.shape.length x.1 (sections_length s1).1 cuts 0 hall'
  have c2 := groups_cover t.shape.length y.1 (sections_length s1').1 cuts 0 hall'
  rw [List.drop_zero] at c1 c2
  rw [← c1, ← c2]
  congr 1
  refine List.map_congr_left fun ab hab => ?_
  have := List.map_inj_left.mp hk ab hab
  have r1 := slice_inRange (sections_inRange s1) ab
  have r2 := slice_inRange (sections_inRange s1') ab
  rw [flattenLoop_eq (List.Forall₂.length_eq r1), flattenLoop_eq (List.Forall₂.length_eq r2)] at this
  rw [← unflat_flat r1, ← unflat_flat r2]
  exact congrArg _ this

theorem unflattenLoop_pos : ∀ {ns : List Nat} {k : Nat} {u}, unflattenLoop ns k = .ok u → ∀ n ∈ ns, 0 < n
  | [], _, _, _ => by simp
  | n :: ns, k, u, h => by
    simp only [unflattenLoop] at h
    obtain ⟨v, h1, h⟩ := bind_ok h
    have ih := unflattenLoop_pos h1
    split at h
    · cases h
    · intro m hm
      rcases List.mem_cons.mp hm with rfl | hm
      · omega
      · exact ih m hm

theorem reshapeAs_keeps {t other r : BT G R} (hc : Conserving t.shape t.rule t.blocks) {ow : Bool}
    (h : reshapeAs ow t other = .ok r) : Conserving r.shape r.rule r.blocks := by
  simp only [reshapeAs] at h
  split at h
  · cases h
  rename_i hp
  obtain ⟨_, _, h⟩ := bind_ok h
  split at h
  · cases h
  obtain ⟨_, _, h⟩ := bind_ok h
  split at h
  · cases h
  obtain ⟨bl, hm, h⟩ := bind_ok h
  refine checked_conserving h (sortKeys_sorted (mapM_keys hc.sorted hm ?_))
  have key : ∀ x ∈ t.blocks, ∀ x', reshapeAsBlk ow t other x = .ok x' → x'.1 = reKey t.shape other.shape x.1 := by
    intro x hx x' fx
    obtain ⟨s, s1, _⟩ := hc.block x.1 x.2 hx
    have hr := sections_inRange s1
    obtain ⟨u, hu, fx⟩ := bind_ok fx
    obtain ⟨_, _, fx⟩ := bind_ok fx
    split at fx
    · cases fx
    obtain ⟨_, _, fx⟩ := bind_ok fx
    obtain ⟨_, _, fx⟩ := bind_ok fx
    cases fx
    rw [flattenLoop_eq (List.Forall₂.length_eq hr)] at hu
    have := unflattenLoop_eq (unflattenLoop_pos hu) (flat (secCounts t.shape) x.1) 0 (by
      rw [not_not.mp hp]; exact flat_lt hr)
    rw [zero_mul, zero_add, hu] at this
    cases this
    rfl
  intro x hx y hy x' y' fx fy hk
  rw [key x hx x' fx, key y hy y' fy] at hk
  obtain ⟨s, s1, _⟩ := hc.block x.1 x.2 hx
  obtain ⟨s', s1', _⟩ := hc.block y.1 y.2 hy
  rw [← reKey_reKey (not_not.mp hp).symm (sections_inRange s1), hk, reKey_reKey (not_not.mp hp).symm (sections_inRange s1')]

/-- Whatever the pairs of blocks give, the map of a broadcast stays sorted. -/
theorem broadcast_sorted {op : R → R → R} {b : Bool} {mask : List Nat} :
    ∀ {l : List ((List Nat × Blk R) × List Nat × Blk R)} {acc bl : FM (List Nat) (Blk R)}, Sorted acc →
    l.foldlM (broadcastStep op b mask) acc = .ok bl → Sorted bl
  | [], acc, bl, hs, h => by cases h; exact hs
  | x :: l, acc, bl, hs, h => by
    rw [List.foldlM_cons] at h
    obtain ⟨acc', h1, h⟩ := bind_ok h
    refine broadcast_sorted ?_ h
    unfold broadcastStep at h1
    dsimp only at h1
    generalize matchIndex mask _ _ = q at h1
    generalize outIndex _ _ = w at h1
    cases q
    · cases h1; exact hs
    · rw [if_pos rfl] at h1
      obtain ⟨k, _, h1⟩ := bind_ok h1
      obtain ⟨v, _, h1⟩ := bind_ok h1
      obtain ⟨q, hq, h1⟩ := bind_ok h1
      cases h1
      obtain ⟨_, pos, h2, _⟩ := FM.C12_usual_hints_partial hs k v acc.length (.inl rfl)
      rw [h2] at hq
      cases hq
      exact ((FM.emplace_eq_insert hs k v) ▸ (FM.insert_eq hs k v).1)

theorem broadcastOp_keeps {a b r : BT G R} {op : R → R → R} (h : broadcastOp op a b = .ok r) :
    Conserving r.shape r.rule r.blocks := by
  simp only [broadcastOp] at h
  obtain ⟨s, _, h⟩ := bind_ok h
  obtain ⟨bl, hb, h⟩ := bind_ok h
  exact checked_conserving h (broadcast_sorted .nil hb)

section zero
variable [Zero R]

theorem insert_keeps {t r : BT G R} (hc : Conserving t.shape t.rule t.blocks) {k : List Nat} {v : Blk R}
    (hv : ∃ secs, sections t.shape k = some secs ∧ v.dims = secs.map Prod.fst)
    (h : blockAssign t k v = .ok r) : Conserving r.shape r.rule r.blocks := by
  obtain ⟨secs, h1, h2⟩ := hv
  simp only [blockAssign, conserves_eq h1] at h
  by_cases hq : charge secs = t.rule
  · simp only [hq, decide_true, bind, Except.bind, if_true] at h
    cases h
    obtain ⟨i1, i2⟩ := indexAssign_eq hc.sorted undef k v
    refine ⟨i1, ?_⟩
    intro k' b' hk
    have hl := lookup_of_mem i1 hk
    rw [i2] at hl
    split at hl
    · rename_i hk'
      cases hl
      exact ⟨secs, (congrArg (sections t.shape) hk').trans h1, hq, h2⟩
    · exact hc.block k' b' (mem_of_lookup hl)
  · simp only [hq, decide_false, bind, Except.bind] at h
    cases h

theorem fillLoop_mono {mk : List Nat → List Nat → Res (Option (Blk R))} : ∀ {n m : Nat} {t : BT G R} {i r}, n ≤ m →
    fillLoop mk n t i = some r → fillLoop mk m t i = some r
  | 0, _, _, _, _, _, h => by simp [fillLoop] at h
  | n + 1, 0, _, _, _, hl, _ => by omega
  | n + 1, m + 1, t, i, r, hl, h => by
    simp only [fillLoop] at h ⊢
    split at h
    · exact h
    · split at h
      · rename_i hh
        rw [if_pos hh]
        exact fillLoop_mono (by omega) h
      · rename_i hh
        rw [if_neg hh]
        exact h

theorem factory_keeps {shape : Shape G} {rule : G} (hp : Populated shape) {fac : List Nat → List Nat → List Nat → R} {fuel : Nat}
    {r} (h : factoryWrap fac fuel (sparseZeros shape rule) = some (.ok r)) : Conserving r.shape r.rule r.blocks := by
  obtain ⟨fuel', t, h1, h2, h3, h4, h5, h6⟩ := C15_factory_partial shape rule hp fac
  have e1 := fillLoop_mono (Nat.le_max_left fuel fuel') h
  have e2 := fillLoop_mono (Nat.le_max_right fuel fuel') h1
  rw [e1] at e2
  cases e2
  refine ⟨h4, ?_⟩
  intro k b hk
  have hl := lookup_of_mem h4 hk
  by_cases ha : Allowed shape rule k
  · obtain ⟨secs, a1, a2⟩ := ha
    rw [h5 k secs a1 a2] at hl
    cases hl
    exact ⟨secs, h2 ▸ a1, h3 ▸ a2, rfl⟩
  · rw [h6 k ha] at hl; cases hl

theorem fromBasic_keeps {shape : Shape G} {rule : G} (hp : Populated shape) {sig : Blk R → Bool} {values : Blk R}
    (hv : values.dims = shape.map dimSize) {fuel : Nat}
    {r} (h : fromBasic sig values fuel (sparseZeros shape rule) = some (.ok r)) : Conserving r.shape r.rule r.blocks := by
  obtain ⟨fuel', t, h1, h2, h3, h4, _⟩ := C19_from_basic_partial shape rule hp sig values hv
  simp only [fromBasic] at h h1
  split at h
  · cases h
  rename_i hh
  rw [if_neg hh] at h1
  have e1 := fillLoop_mono (Nat.le_max_left fuel fuel') h
  have e2 := fillLoop_mono (Nat.le_max_right fuel fuel') h1
  rw [e1] at e2
  cases e2
  rw [h2, h3]
  exact h4

end zero

theorem contractible_of_checks {a b : Shape G} : ∀ {da db : List Nat} {u ca cb}, (da.zip db).mapM (checkPair a b) = .ok u →
    gather da a = some ca → gather db b = some cb → ca.map (·.map Prod.fst) = cb.map (·.map Prod.fst) → Contractible ca cb
  | [], db, u, ca, cb, _, h1, h2, h3 => by
    rw [gather_nil] at h1; cases h1
    have : cb = [] := List.map_eq_nil_iff.mp h3.symm
    subst this; exact .nil
  | i :: da, [], u, ca, cb, _, h1, h2, h3 => by
    rw [gather_nil] at h2; cases h2
    have : ca = [] := List.map_eq_nil_iff.mp h3
    subst this; exact .nil
  | i :: da, j :: db, u, ca, cb, h, h1, h2, h3 => by
    obtain ⟨d, ca', d1, d2, rfl⟩ := gather_cons.mp h1
    obtain ⟨d', cb', d1', d2', rfl⟩ := gather_cons.mp h2
    rw [List.zip_cons_cons, List.mapM_cons] at h
    obtain ⟨_, c1, h⟩ := bind_ok h
    obtain ⟨_, c2, _⟩ := bind_ok h
    simp only [List.map_cons, List.cons.injEq] at h3
    refine .cons ?_ (contractible_of_checks c2 d2 d2' h3.2)
    rw [checkPair_iff d1 d1'] at c1
    split at c1
    · rename_i hq
      have h4 := h3.1
      clear c1 h1 h2 d1 d1' h3 h
      induction hq with
      | nil => exact .nil
      | cons hx _ ih =>
        simp only [List.map_cons, List.cons.injEq] at h4
        exact .cons ⟨h4.1, hx⟩ (ih h4.2)
    · cases c1

theorem tensordot_keeps [Semiring R] {a b r : BT G R} (ha : Conserving a.shape a.rule a.blocks)
    (hb : Conserving b.shape b.rule b.blocks) {da db : List Nat}
    (hsz : ∀ ca cb, gather da a.shape = some ca → gather db b.shape = some cb → ca.map (·.map Prod.fst) = cb.map (·.map Prod.fst))
    (hla : ∀ d ∈ a.shape, d.length < 2 ^ 63) (hlb : ∀ d ∈ b.shape, d.length < 2 ^ 63) {fuel : Nat}
    (h : tensordot fuel a b da db = some (.ok r)) : Conserving r.shape r.rule r.blocks := by
  rcases hsh : tdotShape a.shape b.shape da db with e | p
  · have : tensordot fuel a b da db = some (.error e) := by
      unfold tensordot
      rw [hsh]
      rfl
    rw [this] at h; cases h
  obtain ⟨hda, hdb, hl, rfl, ca, cb, hca, hcb⟩ := tdotShape_ok hsh
  have hpa := outer_perm hda (gather_lt hca)
  have hpb := outer_perm hdb (gather_lt hcb)
  obtain ⟨sa, hsa⟩ := gather_isSome (l := a.shape) (p := others da a.shape.length)
    (fun j hj => perm_range_lt hpa j (List.mem_append_left _ hj))
  obtain ⟨sb, hsb⟩ := gather_isSome (l := b.shape) (p := others db b.shape.length)
    (fun j hj => perm_range_lt hpb j (List.mem_append_left _ hj))
  have hck : ∃ u, (da.zip db).mapM (checkPair a.shape b.shape) = .ok u := by
    simp only [tdotShape, if_neg (not_not.mpr hl)] at hsh
    obtain ⟨u, hu, _⟩ := bind_ok hsh
    exact ⟨u, hu⟩
  obtain ⟨u, hu⟩ := hck
  obtain ⟨r', h1, _, _, h2, _⟩ := C23_tensordot a b ha hb da db hda hdb sa sb ca cb hca hcb hsa hsb
    (contractible_of_checks hu hca hcb (hsz ca cb hca hcb)) hla hlb fuel (.ok r) h
  cases h1
  exact h2

end BT
end QuantiT
