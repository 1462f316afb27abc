import Verif.Spec.Types
import Verif.Props.BTensor
import Verif.Props.SvdError
import Verif.Props.Eigh
import Verif.Props.Tensordot
import Verif.Lemmas.BlockDmrg5
import Verif.Lemmas.Network
import Verif.Lemmas.History
/-
C110 and C111: element types.
-/
namespace QuantiT.TY
open Spec BT Finset
variable {G : Type}

theorem valueOf_zero (a : DT) : ValueOf a 0 := by
  cases a
  · exact ⟨0, by simp⟩
  · simp [ValueOf]
  · trivial

theorem valueOf_one (a : DT) : ValueOf a 1 := by
  cases a
  · exact ⟨1, by simp⟩
  · simp [ValueOf]
  · trivial

theorem valueOf_add {a : DT} {z w : ℂ} (hz : ValueOf a z) (hw : ValueOf a w) : ValueOf a (z + w) := by
  cases a with
  | int l =>
    obtain ⟨n, rfl⟩ := hz
    obtain ⟨m, rfl⟩ := hw
    exact ⟨n + m, by push_cast; rfl⟩
  | real l =>
    have h1 : z.im = 0 := hz
    have h2 : w.im = 0 := hw
    show (z + w).im = 0
    simp [h1, h2]
  | complex l => trivial

theorem valueOf_mul {a : DT} {z w : ℂ} (hz : ValueOf a z) (hw : ValueOf a w) : ValueOf a (z * w) := by
  cases a with
  | int l =>
    obtain ⟨n, rfl⟩ := hz
    obtain ⟨m, rfl⟩ := hw
    exact ⟨n * m, by push_cast; rfl⟩
  | real l =>
    have h1 : z.im = 0 := hz
    have h2 : w.im = 0 := hw
    show (z * w).im = 0
    simp [h1, h2]
  | complex l => trivial

theorem valueOf_sum {a : DT} : ∀ {l : List ℂ}, (∀ z ∈ l, ValueOf a z) → ValueOf a l.sum
  | [], _ => by simpa using valueOf_zero a
  | z :: l, h => by
    rw [List.sum_cons]
    exact valueOf_add (h z (by simp)) (valueOf_sum fun w hw => h w (by simp [hw]))

theorem valueOf_div {a : DT} (ha : ∀ l, a ≠ .int l) {z w : ℂ} (hz : ValueOf a z) (hw : ValueOf a w) : ValueOf a (z / w) := by
  cases a with
  | int l => exact absurd rfl (ha l)
  | real l =>
    have h1 : z.im = 0 := hz
    have h2 : w.im = 0 := hw
    show (z / w).im = 0
    simp [Complex.div_im, h1, h2]
  | complex l => trivial

theorem trunc_int (n : ℤ) : trunc (n : ℝ) = n := by
  unfold trunc
  split <;> simp

/-- A conversion changes nothing exactly for the values of the type. -/
theorem cast_eq (a : DT) (z : ℂ) : cast a z = z ↔ ValueOf a z := by
  cases a with
  | int l =>
    constructor
    · intro h
      have h' : ((trunc z.re : ℝ) : ℂ) = z := h
      unfold trunc at h'
      split at h'
      · exact ⟨⌊z.re⌋, by rw [← h']; simp⟩
      · exact ⟨⌈z.re⌉, by rw [← h']; simp⟩
    · rintro ⟨n, rfl⟩
      show ((trunc ((n : ℂ)).re : ℝ) : ℂ) = n
      rw [Complex.intCast_re, trunc_int]
      simp
  | real l =>
    show ((z.re : ℝ) : ℂ) = z ↔ z.im = 0
    rw [Complex.ext_iff]
    simp [eq_comm]
  | complex l => simp [cast, ValueOf]

theorem cast_zero (a : DT) : cast a 0 = 0 := (cast_eq a 0).2 (valueOf_zero a)

/-! ### C111: the declared type -/

/-- **C111.**  `to_dense()` gives every entry of a tensor exactly when the declared type can hold every entry. -/
theorem C111_dense [AddCommGroup G] [DecidableEq G] (x : TT G) (hc : Conserving x.t.shape x.t.rule x.t.blocks) :
    SameEntries (toDenseT x) x ↔ Declares x := by
  obtain ⟨d, h1, h2, h3⟩ := C18_to_dense (mapBlocks (cast x.opt) x.t) (BN.conserving_mapBlocks _ hc)
  have hd : ∀ e, d.f e = cast x.opt (entry x.t.shape x.t.blocks e) := fun e => by rw [h3, entry_mapBlocks _ (cast_zero _)]
  constructor
  · rintro ⟨d', e1, e2, e3⟩ e he
    have : toDenseT x = .ok d := h1
    rw [this] at e1
    cases e1
    exact (cast_eq _ _).1 ((hd e).symm.trans (e3 e he))
  · intro h
    exact ⟨d, h1, h2, fun e he => by rw [hd]; exact (cast_eq _ _).2 (h e he)⟩

theorem declares_of_ofType {a : DT} {x : TT G} (h : OfType a x) : Declares x := by
  intro e he
  rw [h.declared]
  exact h.values e he

/-- **C111.**  `from_basic_tensor` of values of the type asked for gives a tensor of that type. -/
theorem C111_from_dense_partial [AddCommGroup G] [DecidableEq G] (shape : Shape G) (rule : G) (hpos : ∀ d ∈ shape, d ≠ [])
    (sig : Blk ℂ → Bool) (values : Blk ℂ) (a : DT) (hv : values.dims = shape.map dimSize)
    (hval : ∀ e, InRange e values.dims → ValueOf a (values.f e)) :
    ∃ fuel x, fromBasicT sig values a fuel shape rule a = some (.ok x) ∧ Conserving x.t.shape x.t.rule x.t.blocks ∧ OfType a x := by
  obtain ⟨fuel, t, h1, h2, h3, h4, cut, h5, h6⟩ := C19_from_basic_partial shape rule hpos sig values hv
  refine ⟨fuel, ⟨t, a, fun _ => a⟩, by simp only [fromBasicT, h1], by rw [h2, h3]; exact h4, rfl, fun _ _ _ => rfl, ?_⟩
  intro e he
  show ValueOf a (entry t.shape t.blocks e)
  have he' : InRange e (t.shape.map dimSize) := he
  rw [h2] at he' ⊢
  obtain ⟨⟨k, o⟩, hl⟩ := locateAll_isSome.mpr he'
  simp only [entry, hl, h6]
  by_cases hk : Allowed shape rule k ∧ sig (cut k) = true
  · rw [if_pos hk]
    obtain ⟨secs, hs, _⟩ := hk.1
    show ValueOf a ((cut k).f o)
    rw [(h5 k secs hs).2 e o hl]
    exact hval e (by rw [hv]; exact he')
  · rw [if_neg hk]
    exact valueOf_zero a

/-- Outside of the tensor every entry is zero. -/
theorem ofType_all {a : DT} {x : TT G} (h : OfType a x) (e : List Nat) : ValueOf a (entry x.t.shape x.t.blocks e) := by
  by_cases he : InRange e (x.t.shape.map dimSize)
  · exact h.values e he
  · have : locateAll x.t.shape e = none := by
      rcases hl : locateAll x.t.shape e with _ | p
      · rfl
      · exact absurd (locateAll_isSome.1 ⟨p, hl⟩) he
    simp only [entry, this]
    exact valueOf_zero a

theorem valueOf_left {a : DT} {z : ℂ} (b : DT) (h : ValueOf a z) : ValueOf (promote a b) z := by
  cases a with
  | int l =>
    obtain ⟨n, rfl⟩ := h
    cases b
    · exact ⟨n, rfl⟩
    · show ((n : ℂ)).im = 0
      simp
    · trivial
  | real l =>
    cases b
    · exact h
    · exact h
    · trivial
  | complex l => cases b <;> trivial

theorem valueOf_right {b : DT} {z : ℂ} (a : DT) (h : ValueOf b z) : ValueOf (promote a b) z := by
  have : promote a b = promote b a := by cases a <;> cases b <;> simp [promote, Bool.or_comm]
  rw [this]
  exact valueOf_left a h

/-- **C111.**  The product with a number declares a type that holds every entry, which is the entry times the number. -/
theorem C111_mul [AddCommGroup G] [DecidableEq G] (dflt : Bool) (a ct : DT) (x : TT G) (hx : OfType a x) (c : ℂ) (hc : ValueOf ct c) :
    Declares (mulNumT dflt x c ct) ∧
      ∀ e, entry (mulNumT dflt x c ct).t.shape (mulNumT dflt x c ct).t.blocks e = entry x.t.shape x.t.blocks e * c := by
  have he : ∀ e, entry (mulNumT dflt x c ct).t.shape (mulNumT dflt x c ct).t.blocks e = entry x.t.shape x.t.blocks e * c :=
    fun e => entry_mapBlocks (· * c) (by simp) x.t e
  refine ⟨fun e _ => ?_, he⟩
  rw [he]
  show ValueOf (promote x.opt ct) _
  rw [hx.declared]
  exact valueOf_mul (valueOf_left _ (ofType_all hx e)) (valueOf_right _ hc)

/-- The type of the product is the declared one if the number is not of a higher type. -/
theorem withNumber_eq {dflt : Bool} {a ct : DT} (h : promote a ct = a) : withNumber dflt a ct = a := by
  cases a <;> cases ct <;> simp_all [promote, withNumber]

/-- **C111.**  The product with a number of a type that is not above that of the tensor has the type of the tensor. -/
theorem C111_mul_type_partial [AddCommGroup G] [DecidableEq G] (dflt : Bool) (a ct : DT) (h : promote a ct = a) (x : TT G) (hx : OfType a x) (c : ℂ)
    (hc : ValueOf ct c) : OfType a (mulNumT dflt x c ct) := by
  refine ⟨by show promote x.opt ct = a; rw [hx.declared, h], ?_, ?_⟩
  · intro k b hk
    obtain ⟨kb, h1, h2⟩ := List.mem_map.1 hk
    have : kb.1 = k := congrArg Prod.fst h2
    show withNumber dflt (x.ty k) ct = a
    rw [hx.stored k kb.2 (by rw [← this]; exact h1), withNumber_eq h]
  · intro e he
    have := (C111_mul dflt a ct x hx c hc).1 e he
    have ho : (mulNumT dflt x c ct).opt = a := by show promote x.opt ct = a; rw [hx.declared, h]
    rw [ho] at this
    exact this

/-- **C111 fails** as a claim about the type stored: the product of a tensor of short real numbers and a number declares long real
numbers and stores short ones. -/
theorem C111_mul_type_fails (dflt : Bool) (x : TT G) (hx : OfType (.real false) x) (hb : x.t.blocks ≠ []) (c : ℂ) :
    (mulNumT dflt x c (.real true)).opt = .real true ∧
      ∃ k b, (k, b) ∈ (mulNumT dflt x c (.real true)).t.blocks ∧ (mulNumT dflt x c (.real true)).ty k = .real false := by
  refine ⟨by show promote x.opt _ = _; rw [hx.declared]; rfl, ?_⟩
  obtain ⟨⟨k, b⟩, hkb⟩ := List.exists_mem_of_ne_nil _ hb
  refine ⟨k, _, List.mem_map.2 ⟨(k, b), hkb, rfl⟩, ?_⟩
  show withNumber dflt (x.ty k) _ = _
  rw [hx.stored k b hkb]
  rfl

/-- **C111.**  The quotient by a number, unless both are integers. -/
theorem C111_div_partial [AddCommGroup G] [DecidableEq G] (dflt : Bool) (a ct : DT) (h : ∀ l, promote a ct ≠ .int l) (x : TT G) (hx : OfType a x)
    (c : ℂ) (hc : ValueOf ct c) :
    Declares (divNumT dflt x c ct) ∧
      ∀ e, entry (divNumT dflt x c ct).t.shape (divNumT dflt x c ct).t.blocks e = entry x.t.shape x.t.blocks e / c := by
  have he : ∀ e, entry (divNumT dflt x c ct).t.shape (divNumT dflt x c ct).t.blocks e = entry x.t.shape x.t.blocks e / c :=
    fun e => entry_mapBlocks (· / c) (by simp) x.t e
  refine ⟨fun e _ => ?_, he⟩
  rw [he]
  show ValueOf (promote x.opt ct) _
  rw [hx.declared]
  exact valueOf_div h (valueOf_left _ (ofType_all hx e)) (valueOf_right _ hc)

theorem valueOf_withNumber {t ct : DT} {z c : ℂ} (dflt : Bool) (h : ValueOf t z) (hc : ValueOf ct c) : ValueOf (withNumber dflt t ct) (z * c) := by
  cases t <;> cases ct <;> simp only [withNumber, ValueOf] at *
  · obtain ⟨n, rfl⟩ := h
    obtain ⟨n', rfl⟩ := hc
    exact ⟨n * n', by push_cast; rfl⟩
  · obtain ⟨n, rfl⟩ := h
    simp [hc]
  · obtain ⟨n, rfl⟩ := hc
    simp [h]
  · simp [h, hc]

theorem valueOf_divided {t ct : DT} {z c : ℂ} (dflt : Bool) (h : ValueOf t z) (hc : ValueOf ct c) :
    ValueOf (divided dflt (withNumber dflt t ct)) (z / c) := by
  cases t <;> cases ct <;> simp only [withNumber, divided, ValueOf] at *
  · obtain ⟨n, rfl⟩ := h
    obtain ⟨n', rfl⟩ := hc
    simp [Complex.div_im]
  · obtain ⟨n, rfl⟩ := h
    simp [Complex.div_im, hc]
  · obtain ⟨n, rfl⟩ := hc
    simp [Complex.div_im, h]
  · simp [Complex.div_im, h, hc]

/-- **C111.**  Products and quotients with numbers, of all types, are stored in types that hold them, also where the declared type is another. -/
theorem C111_stored (dflt : Bool) (ct : DT) (x : TT G) (hx : TypesHold x) (c : ℂ) (hc : ValueOf ct c) :
    TypesHold (mulNumT dflt x c ct) ∧ TypesHold (divNumT dflt x c ct) := by
  constructor
  · intro k b hk e
    obtain ⟨⟨k', b'⟩, h1, h2⟩ := List.mem_map.1 hk
    cases h2
    exact valueOf_withNumber dflt (hx _ _ h1 e) hc
  · intro k b hk e
    obtain ⟨⟨k', b'⟩, h1, h2⟩ := List.mem_map.1 hk
    cases h2
    exact valueOf_divided dflt (hx _ _ h1 e) hc

/-- **C111.**  The quotient by a number of a type that is not above that of the tensor, which is not an integer. -/
theorem C111_div_type_partial [AddCommGroup G] [DecidableEq G] (dflt : Bool) (a ct : DT) (ha : ∀ l, a ≠ .int l) (h : promote a ct = a) (x : TT G)
    (hx : OfType a x) (c : ℂ) (hc : ValueOf ct c) : OfType a (divNumT dflt x c ct) := by
  have ho : (divNumT dflt x c ct).opt = a := by show promote x.opt ct = a; rw [hx.declared, h]
  refine ⟨ho, ?_, ?_⟩
  · intro k b hk
    obtain ⟨kb, h1, h2⟩ := List.mem_map.1 hk
    have : kb.1 = k := congrArg Prod.fst h2
    show divided dflt (withNumber dflt (x.ty k) ct) = a
    rw [hx.stored k kb.2 (by rw [← this]; exact h1), withNumber_eq h]
    cases a
    · exact absurd rfl (ha _)
    · rfl
    · rfl
  · intro e he
    have := (C111_div_partial dflt a ct (by rw [h]; exact ha) x hx c hc).1 e he
    rw [ho] at this
    exact this

/-- **C111.**  The sum of two tensors of one type has that type and the entries of a sum. -/
theorem C111_add_partial [AddCommGroup G] [DecidableEq G] (a : DT) (x y : TT G) (hx : OfType a x) (hy : OfType a y)
    (cx : Conserving x.t.shape x.t.rule x.t.blocks) (cy : Conserving y.t.shape y.t.rule y.t.blocks) (hs : x.t.shape = y.t.shape)
    (hr : x.t.rule = y.t.rule) :
    ∃ z, addT x y = .ok z ∧ OfType a z ∧ z.t.shape = x.t.shape ∧ z.t.rule = x.t.rule ∧ Conserving z.t.shape z.t.rule z.t.blocks ∧
      ∀ e, InRange e (x.t.shape.map dimSize) →
        entry z.t.shape z.t.blocks e = entry x.t.shape x.t.blocks e + entry y.t.shape y.t.blocks e := by
  obtain ⟨r, h1, h2, h3, h4, h5⟩ := C21_add_one_partial x.t y.t cx cy hs hr
  have hcan : canCast (promote a a) a = true := by cases a <;> simp [promote, canCast]
  have hno : (y.t.blocks.any fun kb => (x.t.blocks.any fun kb' => decide (kb'.1 = kb.1)) &&
      !canCast (promote (x.ty kb.1) (y.ty kb.1)) (x.ty kb.1)) = false := by
    rw [List.any_eq_false]
    rintro ⟨k, b⟩ hk
    simp only [Bool.and_eq_true, Bool.not_eq_true', not_and, Bool.not_eq_false]
    intro h
    obtain ⟨⟨k', b'⟩, h6, h7⟩ := List.any_eq_true.1 h
    have h7 : k' = k := by simpa using h7
    subst h7
    rw [hx.stored _ _ h6, hy.stored _ _ hk]
    exact hcan
  have hkeys : ∀ k b, (k, b) ∈ r.blocks → (∃ b', (k, b') ∈ x.t.blocks) ∨ ∃ b', (k, b') ∈ y.t.blocks := by
    intro k b hk
    obtain ⟨m, m1, m2, m3⟩ := FM.C11_merge_exact_partial (addBlk (1 : ℂ)) (scaleBlk 1) cx.sorted cy.sorted
    have hm : r.blocks = m := by
      simp only [BT.add, addCheck_same x.t y.t hs hr, m1, bind, Except.bind] at h1
      cases h1
      rfl
    rw [hm] at hk
    have hl := lookup_of_mem m2 hk
    rw [m3] at hl
    rcases hxk : lookup x.t.blocks k with _ | b1
    · rcases hyk : lookup y.t.blocks k with _ | b2
      · simp only [hxk, hyk] at hl
        split at hl <;> simp [mergeVal] at hl
      · exact .inr ⟨b2, mem_of_lookup hyk⟩
    · exact .inl ⟨b1, mem_of_lookup hxk⟩
  have hty : ∀ k b, (k, b) ∈ r.blocks → (if (x.t.blocks.any fun kb' => decide (kb'.1 = k)) = true then x.ty k else y.ty k) = a := by
    intro k b hk
    split
    · rename_i h
      obtain ⟨⟨k', b'⟩, h6, h7⟩ := List.any_eq_true.1 h
      have h7 : k' = k := by simpa using h7
      subst h7
      exact hx.stored _ _ h6
    · rename_i h
      rcases hkeys k b hk with ⟨b', h6⟩ | ⟨b', h6⟩
      · exact absurd (List.any_eq_true.2 ⟨_, h6, by simp⟩) h
      · exact hy.stored _ _ h6
  refine ⟨_, by simp only [addT, h1, bind, Except.bind]; rw [if_neg (by rw [hno]; simp)], ⟨?_, ?_, ?_⟩, h2, h3, h4, ?_⟩
  · show (match r.blocks with | [] => x.opt | kb :: _ => _) = a
    rcases hb : r.blocks with _ | ⟨⟨k, b⟩, l⟩
    · exact hx.declared
    · exact hty k b (by rw [hb]; simp)
  · intro k b hk
    exact hty k b hk
  · intro e he
    have he' : InRange e (r.shape.map dimSize) := he
    rw [h2] at he'
    show ValueOf a (entry r.shape r.blocks e)
    rw [h5 e he', one_mul]
    exact valueOf_add (ofType_all hx e) (ofType_all hy e)
  · intro e he
    show entry r.shape r.blocks e = _
    rw [h5 e he, one_mul]

/-- **C111.**  A contraction of two tensors of one type has that type. -/
theorem C111_tensordot_partial [AddCommGroup G] [DecidableEq G] (a : DT) (x y : TT G) (hx : OfType a x) (hy : OfType a y)
    (cx : Conserving x.t.shape x.t.rule x.t.blocks) (cy : Conserving y.t.shape y.t.rule y.t.blocks)
    (da db : List Nat) (hda : da.Nodup) (hdb : db.Nodup) (sa sb ca cb : Shape G)
    (hca : gather da x.t.shape = some ca) (hcb : gather db y.t.shape = some cb)
    (hsa : gather (others da x.t.shape.length) x.t.shape = some sa) (hsb : gather (others db y.t.shape.length) y.t.shape = some sb)
    (hc : Contractible ca cb) (hla : ∀ d ∈ x.t.shape, d.length < 2 ^ 63) (hlb : ∀ d ∈ y.t.shape, d.length < 2 ^ 63)
    (fuel : Nat) (res : Res (TT G)) (hres : tensordotT fuel x y da db = some res) :
    ∃ z, res = .ok z ∧ OfType a z ∧ z.t.shape = sa ++ sb ∧ Conserving z.t.shape z.t.rule z.t.blocks ∧
      ∀ ea eb, InRange ea (sa.map dimSize) → InRange eb (sb.map dimSize) →
        entry z.t.shape z.t.blocks (ea ++ eb) = ((indices (ca.map dimSize)).map fun c =>
          entry x.t.shape x.t.blocks (place da ea c) * entry y.t.shape y.t.blocks (place db eb c)).sum := by
  have hmix : mixes x y da db = false := by
    unfold mixes
    rw [List.any_eq_false]
    rintro ⟨k, b⟩ hk h
    obtain ⟨⟨k', b'⟩, h1, h2⟩ := List.any_eq_true.1 h
    simp [hx.stored _ _ hk, hy.stored _ _ h1] at h2
  unfold tensordotT at hres
  rcases ht : tensordot fuel x.t y.t da db with _ | r
  · rw [ht] at hres
    cases hres
  · obtain ⟨r', h1, h2, h3, h4, h5⟩ := C23_tensordot x.t y.t cx cy da db hda hdb sa sb ca cb hca hcb hsa hsb hc hla hlb fuel r ht
    subst h1
    rw [ht] at hres
    simp only [hmix, Bool.false_eq_true, if_false, Option.some.injEq] at hres
    subst hres
    have hpp : promote a a = a := by cases a <;> simp [promote]
    refine ⟨_, rfl, ⟨?_, ?_, ?_⟩, h2, h4, h5⟩
    · show promote x.opt y.opt = a
      rw [hx.declared, hy.declared, hpp]
    · intro k b _
      show (match x.t.blocks with | [] => x.opt | kb :: _ => x.ty kb.1) = a
      rcases hb : x.t.blocks with _ | ⟨⟨k, b⟩, l⟩
      · exact hx.declared
      · exact hx.stored k b (by rw [hb]; simp)
    · intro e he
      show ValueOf a (entry r'.shape r'.blocks e)
      have he' : InRange e (r'.shape.map dimSize) := he
      rw [h2, List.map_append] at he'
      obtain ⟨ea, eb, rfl, h6, h7⟩ : ∃ ea eb, e = ea ++ eb ∧ InRange ea (sa.map dimSize) ∧ InRange eb (sb.map dimSize) := by
        exact MP.inRange_append_iff he'
      rw [h5 ea eb h6 h7]
      refine valueOf_sum fun z hz => ?_
      obtain ⟨c, _, rfl⟩ := List.mem_map.1 hz
      exact valueOf_mul (ofType_all hx _) (ofType_all hy _)

/-- **C111 fails** for tensors of different types: as soon as two blocks of different types are multiplied, `tensordot` throws. -/
theorem C111_tensordot_fails [AddCommGroup G] [DecidableEq G] (x y : TT G) (da db : List Nat) (fuel : Nat) (r : BT G ℂ)
    (hr : tensordot fuel x.t y.t da db = some (.ok r)) (k k' : List Nat) (b b' : Blk ℂ) (hk : (k, b) ∈ x.t.blocks)
    (hk' : (k', b') ∈ y.t.blocks) (hm : da.map (fun i => k.getD i 0) = db.map (fun i => k'.getD i 0)) (ht : x.ty k ≠ y.ty k') :
    tensordotT fuel x y da db = some (Res.throw .runtimeError) := by
  have hmix : mixes x y da db = true :=
    List.any_eq_true.2 ⟨_, hk, List.any_eq_true.2 ⟨_, hk', by rw [Bool.and_eq_true]; exact ⟨decide_eq_true hm, by simp [ht]⟩⟩⟩
  unfold tensordotT
  rw [hr]
  simp only [hmix, if_true]

/-! ### Concrete tensors -/

/-- A 2 by 2 tensor with one of the two blocks that the rule allows, of one entry `z`. -/
def cellT (i : Nat) (z : ℂ) (a : DT) : TT ℤ :=
  ⟨⟨[[(1, 0), (1, 1)], [(1, 0), (1, -1)]], 0, [([i, i], ⟨[1, 1], fun _ => z⟩)]⟩, a, fun _ => a⟩

example : TypesHold (cellT 0 1 (.int true)) ∧ TypesHold (mulNumT true (cellT 0 1 (.int true)) (1 / 2) (.real true)) := by
  have h : TypesHold (cellT 0 1 (.int true)) := by
    intro k b hk e
    simp [cellT] at hk
    obtain ⟨rfl, rfl⟩ := hk
    exact ⟨1, by simp⟩
  exact ⟨h, (C111_stored true (.real true) _ h _ (by simp [ValueOf])).1⟩

theorem cellT_conserving (i : Nat) (hi : i < 2) (z : ℂ) (a : DT) :
    Conserving (cellT i z a).t.shape (cellT i z a).t.rule (cellT i z a).t.blocks := by
  refine ⟨by unfold Sorted; simp [cellT], ?_⟩
  intro k b h
  simp only [cellT, List.mem_singleton, Prod.mk.injEq] at h
  obtain ⟨rfl, rfl⟩ := h
  rcases i with _ | _ | i
  · exact ⟨[(1, 0), (1, 0)], rfl, rfl, rfl⟩
  · exact ⟨[(1, 1), (1, -1)], rfl, rfl, rfl⟩
  · omega

theorem cellT_entry (i : Nat) (hi : i < 2) (z : ℂ) (a : DT) : entry (cellT i z a).t.shape (cellT i z a).t.blocks [i, i] = z := by
  rcases i with _ | _ | i
  · rfl
  · rfl
  · omega

theorem cellT_values (i : Nat) (z : ℂ) (a : DT) (e : List Nat) :
    entry (cellT i z a).t.shape (cellT i z a).t.blocks e = z ∨ entry (cellT i z a).t.shape (cellT i z a).t.blocks e = 0 := by
  unfold entry
  split
  · exact .inr rfl
  · rename_i o _
    simp only [cellT, lookup]
    by_cases h : [i, i] = o.1
    · left
      simp [List.find?, h]
    · right
      simp [List.find?, h]

theorem cellT_ofType (i : Nat) (z : ℂ) (a : DT) (hz : ValueOf a z) : OfType a (cellT i z a) := by
  refine ⟨rfl, fun _ _ _ => rfl, fun e _ => ?_⟩
  rcases cellT_values i z a e with h | h <;> rw [h]
  · exact hz
  · exact valueOf_zero a

theorem cellT_inRange (i : Nat) (hi : i < 2) (z : ℂ) (a : DT) : InRange [i, i] ((cellT i z a).t.shape.map dimSize) := by
  unfold InRange
  exact .cons hi (.cons hi .nil)

/-- **C111 fails** for `from_basic_tensor` of values of a higher type than the options: complex values under real options give a
tensor that holds `i` and whose `to_dense()` does not. -/
theorem C111_from_dense_fails (l : Bool) : ∃ (shape : Shape ℤ) (values : Blk ℂ) (fuel : Nat) (x : TT ℤ),
    fromBasicT (fun _ => true) values (.complex true) fuel shape 0 (.real l) = some (.ok x) ∧
      (∀ e, InRange e (x.t.shape.map dimSize) → entry x.t.shape x.t.blocks e = values.f e) ∧ ¬ SameEntries (toDenseT x) x := by
  obtain ⟨fuel, t, h1, h2, h3, h4, cut, h5, h6⟩ := C19_from_basic_partial (R := ℂ) ([[(2, 0)]] : Shape ℤ) 0 (by decide) (fun _ => true)
    ⟨[2], fun _ => Complex.I⟩ rfl
  have he : ∀ e, InRange e (t.shape.map dimSize) → entry t.shape t.blocks e = Complex.I := by
    intro e he
    rw [h2] at he ⊢
    obtain ⟨⟨k, o⟩, hl⟩ := locateAll_isSome.mpr he
    have hk : sections ([[(2, 0)]] : Shape ℤ) k = some [(2, 0)] := by
      obtain ⟨n, rfl⟩ : ∃ n, e = [n] := by
        cases he with
        | cons _ h => cases h; exact ⟨_, rfl⟩
      cases he with
      | cons h _ =>
        have h' : n < 2 := h
        rcases n with _ | _ | n
        · cases hl; rfl
        · cases hl; rfl
        · omega
    simp only [entry, hl, h6]
    rw [if_pos ⟨⟨_, hk, by decide⟩, trivial⟩]
    exact (h5 k _ hk).2 e o hl
  refine ⟨[[(2, 0)]], ⟨[2], fun _ => Complex.I⟩, fuel, ⟨t, .real l, fun _ => .complex true⟩, by simp only [fromBasicT, h1], he, ?_⟩
  rw [C111_dense _ (by rw [← h2, ← h3] at h4; exact h4)]
  intro h
  have hr : InRange [0] (t.shape.map dimSize) := by
    rw [h2]
    exact .cons (by decide) .nil
  have := h [0] hr
  have he' := he [0] hr
  simp only [he', ValueOf, Complex.I_im] at this
  exact one_ne_zero this

/-- **C111 fails** for the quotient of integers: the tensor returned holds the quotients and declares integers, so that `to_dense()`
is not the tensor as soon as one quotient is not an integer. -/
theorem C111_div_fails [AddCommGroup G] [DecidableEq G] (dflt : Bool) (l l' : Bool) (x : TT G) (hx : OfType (.int l) x)
    (cx : Conserving x.t.shape x.t.rule x.t.blocks) (c : ℂ) (e : List Nat) (he : InRange e (x.t.shape.map dimSize))
    (hq : ∀ n : ℤ, entry x.t.shape x.t.blocks e / c ≠ n) :
    SameEntries (toDenseT x) x ∧
      ¬ SameEntries (toDenseT (divNumT dflt x c (.int l'))) (divNumT dflt x c (.int l')) := by
  refine ⟨(C111_dense x cx).2 (declares_of_ofType hx), ?_⟩
  rw [C111_dense _ (BN.conserving_mapBlocks (· / c) cx)]
  intro h
  have h1 := h e he
  have ho : (divNumT dflt x c (.int l')).opt = .int (l || l') := by
    show promote x.opt _ = _
    rw [hx.declared]
    rfl
  rw [ho] at h1
  obtain ⟨n, hn⟩ := h1
  have : entry (divNumT dflt x c (.int l')).t.shape (divNumT dflt x c (.int l')).t.blocks e = entry x.t.shape x.t.blocks e / c :=
    entry_mapBlocks (· / c) (by simp) x.t e
  exact hq n (this.symm.trans hn)

example : OfType (.int true) (cellT 0 1 (.int true)) ∧
    Conserving (cellT 0 1 (.int true)).t.shape (cellT 0 1 (.int true)).t.rule (cellT 0 1 (.int true)).t.blocks ∧
    InRange [0, 0] ((cellT 0 1 (.int true)).t.shape.map dimSize) ∧
    ∀ n : ℤ, entry (cellT 0 1 (.int true)).t.shape (cellT 0 1 (.int true)).t.blocks [0, 0] / 2 ≠ n := by
  refine ⟨cellT_ofType 0 1 _ (valueOf_one _), cellT_conserving 0 (by decide) _ _, cellT_inRange 0 (by decide) _ _, fun n h => ?_⟩
  rw [cellT_entry 0 (by decide)] at h
  have h2 : (1 : ℂ) = ((2 * n : ℤ) : ℂ) := by
    push_cast
    rw [← h]
    norm_num
  have h3 : (1 : ℤ) = 2 * n := by exact_mod_cast h2
  omega

theorem merge_cells {R : Type} (f : Blk R → Blk R → Blk R) (g : Blk R → Blk R) (b b' : Blk R) :
    FM.mergeInsert f g [([0, 0], b)] [([1, 1], b')] = .ok [([0, 0], g b), ([1, 1], g b')] := by rfl

/-- **C111 fails** for sums of tensors of different types: `1` in one block plus `i` in another gives a tensor that holds both and
whose `to_dense()` does not. -/
theorem C111_add_fails (l : Bool) : ∃ x y z : TT ℤ, OfType (.real l) x ∧ OfType (.complex l) y ∧
    Conserving x.t.shape x.t.rule x.t.blocks ∧ Conserving y.t.shape y.t.rule y.t.blocks ∧ addT x y = .ok z ∧
      entry z.t.shape z.t.blocks [1, 1] = Complex.I ∧ ¬ SameEntries (toDenseT z) z := by
  obtain ⟨r, h1, h2, h3, h4, h5⟩ := C21_add_one_partial (cellT 0 1 (.real l)).t (cellT 1 Complex.I (.complex l)).t
    (cellT_conserving 0 (by decide) _ _) (cellT_conserving 1 (by decide) _ _) rfl rfl
  have hadd : BT.add (cellT 0 1 (.real l)).t (cellT 1 Complex.I (.complex l)).t 1 = .ok
      ⟨[[(1, 0), (1, 1)], [(1, 0), (1, -1)]], 0, [([0, 0], scaleBlk 1 ⟨[1, 1], fun _ => 1⟩), ([1, 1], scaleBlk 1 ⟨[1, 1], fun _ => Complex.I⟩)]⟩ := by
    unfold BT.add
    have h0 : addCheck (cellT 0 1 (.real l)).t (cellT 1 Complex.I (.complex l)).t = .ok () := addCheck_same _ _ rfl rfl
    rw [h0]
    simp only [bind, Except.bind, cellT, merge_cells]
  have he : entry r.shape r.blocks [1, 1] = Complex.I := by
    rw [h5 [1, 1] (cellT_inRange 1 (by decide) 0 (.real l)), cellT_entry 1 (by decide), one_mul]
    show (0 : ℂ) + _ = _
    rw [zero_add]
  rw [hadd] at h1
  cases h1
  refine ⟨cellT 0 1 (.real l), cellT 1 Complex.I (.complex l), _, cellT_ofType 0 _ _ (valueOf_one _), cellT_ofType 1 _ _ trivial,
    cellT_conserving 0 (by decide) _ _, cellT_conserving 1 (by decide) _ _,
    by simp only [addT, hadd, bind, Except.bind]; rfl, he, ?_⟩
  rw [C111_dense _ h4]
  intro h
  have := h [1, 1] (cellT_inRange 1 (by decide) 0 (.real l))
  simp only [he] at this
  have h6 : Complex.I.im = 0 := this
  rw [Complex.I_im] at h6
  exact one_ne_zero h6

/-- A block that both tensors store cannot take a sum of a higher type: `add` throws. -/
theorem C111_add_throws_fails (l : Bool) : addT (cellT 0 1 (.real l)) (cellT 0 Complex.I (.complex l)) = Res.throw .runtimeError := by
  rfl

/-! ### A history of calls in one type -/

/-- The tensors of a program that stays in one element type `a`: every tensor comes from values of the type, every number is of a
type that is not above it, and integers are not divided. -/
inductive Made [AddCommGroup G] [DecidableEq G] (dflt : Bool) (a : DT) : TT G → Prop
  | dense {sig : Blk ℂ → Bool} {values : Blk ℂ} {fuel : Nat} {shape : Shape G} {rule : G} {x : TT G} : Populated shape →
      values.dims = shape.map dimSize → (∀ e, InRange e values.dims → ValueOf a (values.f e)) →
      fromBasicT sig values a fuel shape rule a = some (.ok x) → Made dflt a x
  | mul {x : TT G} {c : ℂ} {ct : DT} : Made dflt a x → promote a ct = a → ValueOf ct c → Made dflt a (mulNumT dflt x c ct)
  | div {x : TT G} {c : ℂ} {ct : DT} : Made dflt a x → (∀ l, a ≠ .int l) → promote a ct = a → ValueOf ct c →
      Made dflt a (divNumT dflt x c ct)
  | add {x y z : TT G} : Made dflt a x → Made dflt a y → x.t.shape = y.t.shape → x.t.rule = y.t.rule → addT x y = .ok z → Made dflt a z
  | dot {x y z : TT G} {da db : List Nat} {fuel : Nat} {sa sb ca cb : Shape G} : Made dflt a x → Made dflt a y → da.Nodup → db.Nodup →
      gather da x.t.shape = some ca → gather db y.t.shape = some cb → gather (others da x.t.shape.length) x.t.shape = some sa →
      gather (others db y.t.shape.length) y.t.shape = some sb → Contractible ca cb → (∀ d ∈ x.t.shape, d.length < 2 ^ 63) →
      (∀ d ∈ y.t.shape, d.length < 2 ^ 63) → tensordotT fuel x y da db = some (.ok z) → Made dflt a z

theorem made_ofType [AddCommGroup G] [DecidableEq G] {dflt : Bool} {a : DT} {x : TT G} (h : Made dflt a x) :
    Conserving x.t.shape x.t.rule x.t.blocks ∧ OfType a x := by
  induction h with
  | @dense sig values fuel shape rule x hp hv hval hx =>
    obtain ⟨fuel', x', h1, h2, h3⟩ := C111_from_dense_partial shape rule hp sig values a hv hval
    have : x = x' := by
      unfold fromBasicT at hx h1
      rcases hf : fromBasic sig values fuel (sparseZeros shape rule) with _ | _ | t
      · rw [hf] at hx; cases hx
      · rw [hf] at hx; cases hx
      rcases hf' : fromBasic sig values fuel' (sparseZeros shape rule) with _ | _ | t'
      · rw [hf'] at h1; cases h1
      · rw [hf'] at h1; cases h1
      rw [hf] at hx
      rw [hf'] at h1
      have ht : t = t' := by
        simp only [fromBasic] at hf hf'
        split at hf
        · cases hf
        rename_i hh
        rw [if_neg hh] at hf'
        have e1 := fillLoop_mono (Nat.le_max_left fuel fuel') hf
        have e2 := fillLoop_mono (Nat.le_max_right fuel fuel') hf'
        rw [e1] at e2
        cases e2
        rfl
      subst ht
      cases hx
      cases h1
      rfl
    subst this
    exact ⟨h2, h3⟩
  | @mul x c ct _ hp hc ih => exact ⟨BN.conserving_mapBlocks (· * c) ih.1, C111_mul_type_partial dflt a ct hp x ih.2 c hc⟩
  | @div x c ct _ ha hp hc ih => exact ⟨BN.conserving_mapBlocks (· / c) ih.1, C111_div_type_partial dflt a ct ha hp x ih.2 c hc⟩
  | @add x y z _ _ hs hr hz ih1 ih2 =>
    obtain ⟨z', h1, h2, _, _, h3, _⟩ := C111_add_partial a x y ih1.2 ih2.2 ih1.1 ih2.1 hs hr
    rw [h1] at hz
    cases hz
    exact ⟨h3, h2⟩
  | @dot x y z da db fuel sa sb ca cb _ _ h1 h2 h3 h4 h5 h6 h7 h8 h9 hz ih1 ih2 =>
    obtain ⟨z', e1, e2, _, e3, _⟩ := C111_tensordot_partial a x y ih1.2 ih2.2 ih1.1 ih2.1 da db h1 h2 sa sb ca cb h3 h4 h5 h6 h7 h8 h9
      fuel _ hz
    cases e1
    exact ⟨e3, e2⟩

/-- **C111.**  After any finite history of calls in one element type, `to_dense()` gives every entry of the tensor, the tensor
declares that type and every block is stored in it. -/
theorem C111_history_partial [AddCommGroup G] [DecidableEq G] (dflt : Bool) (a : DT) (x : TT G) (h : Made dflt a x) :
    OfType a x ∧ SameEntries (toDenseT x) x :=
  ⟨(made_ofType h).2, (C111_dense x (made_ofType h).1).2 (declares_of_ofType (made_ofType h).2)⟩

/-- A history of three calls: values, the product with a number, the sum of both. -/
example : ∃ x z : TT ℤ, Made true (.complex true) x ∧ addT x (mulNumT true x Complex.I (.complex true)) = .ok z ∧
    Made true (.complex true) z ∧ entry z.t.shape z.t.blocks [0, 1] = 1 + Complex.I := by
  obtain ⟨fuel, t, h1, h2, h3, h4, cut, h5, h6⟩ := C19_from_basic_partial (R := ℂ) ([[(2, 0)], [(2, 0)]] : Shape ℤ) 0 (by decide)
    (fun _ => true) ⟨[2, 2], fun _ => 1⟩ rfl
  have hx : Made true (.complex true) (⟨t, .complex true, fun _ => .complex true⟩ : TT ℤ) :=
    .dense (sig := fun _ => true) (values := ⟨[2, 2], fun _ => 1⟩) (fuel := fuel) (shape := [[(2, 0)], [(2, 0)]]) (rule := 0)
      (by unfold Populated; decide) rfl (fun _ _ => trivial) (by simp only [fromBasicT, h1])
  have hy := Made.mul (c := Complex.I) (ct := .complex true) hx rfl trivial
  obtain ⟨z, z1, z2, z3, z4, z5, z6⟩ := C111_add_partial _ _ _ (made_ofType hx).2 (made_ofType hy).2 (made_ofType hx).1 (made_ofType hy).1
    rfl rfl
  refine ⟨_, z, hx, z1, .add hx hy rfl rfl z1, ?_⟩
  have hr : InRange [0, 1] (t.shape.map dimSize) := by
    rw [h2]
    exact .cons (by decide) (.cons (by decide) .nil)
  have he : entry t.shape t.blocks [0, 1] = 1 := by
    have hl : locateAll ([[(2, 0)], [(2, 0)]] : Shape ℤ) [0, 1] = some ([0, 0], [0, 1]) := by decide
    rw [h2]
    simp only [entry, hl, h6]
    rw [if_pos ⟨⟨_, rfl, by decide⟩, trivial⟩]
    exact (h5 [0, 0] _ rfl).2 [0, 1] [0, 1] hl
  rw [z6 [0, 1] hr, (C111_mul true (.complex true) (.complex true) _ (made_ofType hx).2 Complex.I trivial).2]
  show entry t.shape t.blocks [0, 1] + entry t.shape t.blocks [0, 1] * Complex.I = _
  rw [he, one_mul]

/-- Two blocks of different types that `tensordot` multiplies. -/
example : tensordotT 4 (cellT 0 1 (.real true)) ⟨inverseCvals (cellT 0 Complex.I (.complex true)).t, .complex true, fun _ => .complex true⟩
    [1] [1] = some (Res.throw .runtimeError) := by
  obtain ⟨r, h1, _⟩ := C23_returns (cellT 0 1 (.real true)).t (inverseCvals (cellT 0 Complex.I (.complex true)).t)
    (cellT_conserving 0 (by decide) _ _) ((C27_inverse _).1 (cellT_conserving 0 (by decide) _ _))
    [1] [1] (by simp) (by simp) [[(1, 0), (1, 1)]] [[(1, 0), (1, -1)]] [[(1, 0), (1, -1)]] [[(1, 0), (1, 1)]]
    rfl rfl rfl rfl (by unfold Contractible; decide) (by intro d hd; simp only [cellT] at hd; revert d; decide)
    (by intro d hd; have hd : d ∈ ([[(1, 0), (1, -1)], [(1, 0), (1, 1)]] : Shape ℤ) := hd; revert d; decide)
    (by simp [cellT, inverseCvals]) 4 (by simp [cellT, inverseCvals])
  exact C111_tensordot_fails _ _ [1] [1] 4 r h1 [0, 0] [0, 0] _ _ (List.mem_singleton.2 rfl) (List.mem_singleton.2 rfl) rfl (by simp [cellT])

end QuantiT.TY
