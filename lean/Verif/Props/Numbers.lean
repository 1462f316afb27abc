import Verif.Model.Numbers
import Verif.Props.Types
/-
Tensors and numbers of different element types (C126).
-/
namespace QuantiT
namespace TY
open Spec BT Finset
variable {G : Type}

/-- A number can be written into a tensor of the type: an imaginary part needs a complex type. -/
def Fits (a : DT) (c : ℂ) : Prop := c.im = 0 ∨ isComplex a = true

theorem fits_of_value {a : DT} {c : ℂ} (h : ValueOf a c) : Fits a c := by
  cases a
  · obtain ⟨n, rfl⟩ := h
    exact .inl (Complex.intCast_im n)
  · exact .inl h
  · exact .inr rfl

theorem valueOf_cast (a : DT) (c : ℂ) : ValueOf a (cast a c) := by
  cases a
  · simp only [cast, trunc]
    split
    · exact ⟨⌊c.re⌋, by push_cast; rfl⟩
    · exact ⟨⌈c.re⌉, by push_cast; rfl⟩
  · simp [cast, ValueOf]
  · trivial

/-- A loop whose factory always throws stores nothing, or throws. -/
theorem fillLoop_throws [AddCommMonoid G] [DecidableEq G] (mk : List Nat → List Nat → Res (Option (Blk ℂ))) (err : Fault) :
    ∀ (n : Nat) (t t' : BT G ℂ) (idx : List Nat), fillLoop mk n t idx = some (.ok t') →
      fillLoop (fun _ _ => .error err) n t idx = some (.error err) ∨ t' = t
  | 0, _, _, _, h => by simp [fillLoop] at h
  | n + 1, t, t', idx, h => by
    simp only [fillLoop, fillOnce, bind, Except.bind] at h ⊢
    rcases hc : conserves t idx with e | ok
    · simp only [hc] at h
      cases h
    · rcases ok with _ | _
      · simp only [hc, Bool.false_eq_true, if_false] at h ⊢
        split at h
        · rename_i hi
          rw [if_pos hi]
          exact fillLoop_throws mk err n t t' _ h
        · right
          simpa using h.symm
      · simp only [hc, if_true] at h ⊢
        rcases hs : blockSizes t idx with e | sz
        · simp only [hs] at h
          cases h
        · exact .inl rfl

/-- **C126.**  `full_like(t, c, opt)` and `full(shape, rule, c, opt)`: every entry that the selection rule allows is `c`, converted
to the type of the tensor made; a number with an imaginary part and a real type throw if any block is allowed. -/
theorem C126_full [AddCommGroup G] [DecidableEq G] (opt : Option DT) (c : ℂ) (x : TT G) (hpos : ∀ d ∈ x.t.shape, d ≠ []) :
    (Fits (opt.getD x.opt) c → ∃ fuel f, fullLikeT opt c fuel x = some (.ok f) ∧ f.t.shape = x.t.shape ∧ f.t.rule = x.t.rule ∧
      Conserving f.t.shape f.t.rule f.t.blocks ∧ OfType (opt.getD x.opt) f ∧
      ∀ e k o, locateAll x.t.shape e = some (k, o) →
        entry f.t.shape f.t.blocks e = (open Classical in if Allowed x.t.shape x.t.rule k then cast (opt.getD x.opt) c else 0)) ∧
    (¬ Fits (opt.getD x.opt) c → ∀ k, Allowed x.t.shape x.t.rule k → ∃ fuel, fullLikeT opt c fuel x = some (Res.throw .runtimeError)) := by
  classical
  generalize ha : opt.getD x.opt = a
  obtain ⟨fuel, f, h1, h2, h3, h4, h5, h6⟩ := C15_factory_partial x.t.shape x.t.rule hpos (fun _ _ _ => cast a c)
  refine ⟨fun hf => ?_, fun hf k hk => ?_⟩
  · have hcf : Conserving f.shape f.rule f.blocks := by
      refine ⟨h4, ?_⟩
      intro k b hk
      have hl := lookup_of_mem h4 hk
      by_cases hal : Allowed x.t.shape x.t.rule k
      · obtain ⟨secs, hs, hc⟩ := hal
        rw [h5 k secs hs hc] at hl
        simp only [Option.some.injEq] at hl
        exact ⟨secs, by rw [h2]; exact hs, by rw [h3]; exact hc, by rw [← hl]⟩
      · rw [h6 k hal] at hl; cases hl
    have hef : ∀ e k o, locateAll x.t.shape e = some (k, o) →
        entry f.shape f.blocks e = if Allowed x.t.shape x.t.rule k then cast a c else 0 := by
      intro e k o hl
      by_cases hal : Allowed x.t.shape x.t.rule k
      · rw [if_pos hal]
        obtain ⟨secs, hs, hc⟩ := hal
        simp only [entry, h2, hl, h5 k secs hs hc]
      · rw [if_neg hal]
        simp only [entry, h2, hl, h6 k hal]
    refine ⟨fuel, ⟨f, a, fun _ => a⟩, ?_, h2, h3, hcf, ⟨rfl, fun _ _ _ => rfl, fun e he => ?_⟩, hef⟩
    · simp only [factoryWrap, sparseZeros] at h1
      have hv : fillValue a c = .ok (cast a c) := if_pos hf
      simp only [fullLikeT, ha, hv, bind, Except.bind, sparseZeros, h1, Option.map_some]
    · have he' : InRange e (x.t.shape.map dimSize) := by simpa only [h2] using he
      obtain ⟨⟨k, o⟩, hl⟩ := locateAll_isSome.mpr he'
      show ValueOf a (entry f.shape f.blocks e)
      rw [hef e k o hl]
      split
      · exact valueOf_cast a c
      · exact valueOf_zero a
  · refine ⟨fuel, ?_⟩
    simp only [factoryWrap, sparseZeros] at h1
    have hv : fillValue a c = Res.throw .runtimeError := if_neg hf
    simp only [fullLikeT, ha, hv, bind, Except.bind, sparseZeros, Res.throw]
    rcases fillLoop_throws _ (.throw .runtimeError) fuel _ f _ h1 with h | h
    · rw [h]; rfl
    · obtain ⟨secs, hs, hc⟩ := hk
      have := h5 k secs hs hc
      rw [h] at this
      simp [lookup] at this

/-- The in-place sum of tensors of one type. -/
theorem addInT_ofType [AddCommGroup G] [DecidableEq G] (a : DT) (x y : TT G) (hx : OfType a x) (hy : OfType a y)
    (cx : Conserving x.t.shape x.t.rule x.t.blocks) (cy : Conserving y.t.shape y.t.rule y.t.blocks) (hs : x.t.shape = y.t.shape)
    (hr : x.t.rule = y.t.rule) :
    ∃ z, addInT x y = .ok z ∧ OfType a z ∧ z.t.shape = x.t.shape ∧ z.t.rule = x.t.rule ∧ Conserving z.t.shape z.t.rule z.t.blocks ∧
      ∀ e, InRange e (x.t.shape.map dimSize) →
        entry z.t.shape z.t.blocks e = entry x.t.shape x.t.blocks e + entry y.t.shape y.t.blocks e := by
  obtain ⟨z, h1, h2, h3, h4, h5, h6⟩ := C111_add_partial a x y hx hy cx cy hs hr
  exact ⟨⟨z.t, x.opt, z.ty⟩, by simp only [addInT, h1, bind, Except.bind], ⟨hx.declared, h2.stored, h2.values⟩, h3, h4, h5, h6⟩

open Classical in
/-- What `add` and `add_` of a number give, for a number that can be converted: the number is converted to the type of the tensor first. -/
theorem addNum_converted [AddCommGroup G] [DecidableEq G] (a : DT) (x : TT G) (hx : OfType a x)
    (cx : Conserving x.t.shape x.t.rule x.t.blocks) (hpos : ∀ d ∈ x.t.shape, d ≠ []) (c alpha : ℂ) (hf : Fits a (c * alpha)) :
    ∃ fuel r r', addNumT c alpha fuel x = some (.ok r) ∧ addNumInT c alpha fuel x = some (.ok r') ∧
      OfType a r ∧ OfType a r' ∧ r.t.shape = x.t.shape ∧ r.t.rule = x.t.rule ∧ r'.t.shape = x.t.shape ∧ r'.t.rule = x.t.rule ∧
      Conserving r.t.shape r.t.rule r.t.blocks ∧ Conserving r'.t.shape r'.t.rule r'.t.blocks ∧
      ∀ e k o, locateAll x.t.shape e = some (k, o) →
        entry r.t.shape r.t.blocks e = entry x.t.shape x.t.blocks e + (if Allowed x.t.shape x.t.rule k then cast a (c * alpha) else 0) ∧
        entry r'.t.shape r'.t.blocks e = entry x.t.shape x.t.blocks e + (if Allowed x.t.shape x.t.rule k then cast a (c * alpha) else 0) := by
  have hxo : (none : Option DT).getD x.opt = a := hx.declared
  obtain ⟨h, -⟩ := C126_full none (c * alpha) x hpos
  rw [hxo] at h
  obtain ⟨fuel, f, f1, f2, f3, f4, f5, f6⟩ := h hf
  obtain ⟨r, r1, r2, r3, r4, r5, r6⟩ := addInT_ofType a f x f5 hx f4 cx f2 f3
  obtain ⟨r', q1, q2, q3, q4, q5, q6⟩ := addInT_ofType a x f hx f5 cx f4 f2.symm f3.symm
  refine ⟨fuel, r, r', ?_, ?_, r2, q2, r3.trans f2, r4.trans f3, q3, q4, r5, q5, fun e k o hl => ?_⟩
  · simp only [addNumT, numMul, f1, Option.map_some, bind, Except.bind, r1]
  · simp only [addNumInT, numMul, f1, Option.map_some, bind, Except.bind, q1]
  · have hin := locateAll_isSome.mp ⟨_, hl⟩
    constructor
    · rw [r6 e (by rw [f2]; exact hin), f6 e k o hl, add_comm]
    · rw [q6 e hin, f6 e k o hl]

open Classical in
/-- **C126.**  `t.add(c, alpha)` and `t.add_(c, alpha)` for a tensor of one element type that holds `c * alpha`: every entry that the
selection rule allows grows by `c * alpha`, the others stay zero, and the element type stays.  The full claim is for numbers of
every type, as `mul` has it (`C111_mul`). -/
theorem C126_add_partial [AddCommGroup G] [DecidableEq G] (a : DT) (x : TT G) (hx : OfType a x)
    (cx : Conserving x.t.shape x.t.rule x.t.blocks) (hpos : ∀ d ∈ x.t.shape, d ≠ []) (c alpha : ℂ) (hc : ValueOf a (c * alpha)) :
    ∃ fuel r r', addNumT c alpha fuel x = some (.ok r) ∧ addNumInT c alpha fuel x = some (.ok r') ∧
      OfType a r ∧ OfType a r' ∧ r.t.shape = x.t.shape ∧ r.t.rule = x.t.rule ∧ r'.t.shape = x.t.shape ∧ r'.t.rule = x.t.rule ∧
      Conserving r.t.shape r.t.rule r.t.blocks ∧ Conserving r'.t.shape r'.t.rule r'.t.blocks ∧
      ∀ e k o, locateAll x.t.shape e = some (k, o) →
        entry r.t.shape r.t.blocks e = entry x.t.shape x.t.blocks e + (if Allowed x.t.shape x.t.rule k then c * alpha else 0) ∧
        entry r'.t.shape r'.t.blocks e = entry x.t.shape x.t.blocks e + (if Allowed x.t.shape x.t.rule k then c * alpha else 0) := by
  have := addNum_converted a x hx cx hpos c alpha (fits_of_value hc)
  rwa [(cast_eq a _).2 hc] at this

open Classical in
/-- **C126.**  `t.sub(c, alpha)` and `t.sub_(c, alpha)`: every allowed entry shrinks by `c * alpha`. -/
theorem C126_sub_partial [AddCommGroup G] [DecidableEq G] (a : DT) (x : TT G) (hx : OfType a x)
    (cx : Conserving x.t.shape x.t.rule x.t.blocks) (hpos : ∀ d ∈ x.t.shape, d ≠ []) (c alpha : ℂ) (hc : ValueOf a (c * alpha)) :
    ∃ fuel r r', subNumT c alpha fuel x = some (.ok r) ∧ subNumInT c alpha fuel x = some (.ok r') ∧
      OfType a r ∧ OfType a r' ∧ r.t.shape = x.t.shape ∧ r.t.rule = x.t.rule ∧ r'.t.shape = x.t.shape ∧ r'.t.rule = x.t.rule ∧
      ∀ e k o, locateAll x.t.shape e = some (k, o) →
        entry r.t.shape r.t.blocks e = entry x.t.shape x.t.blocks e - (if Allowed x.t.shape x.t.rule k then c * alpha else 0) ∧
        entry r'.t.shape r'.t.blocks e = entry x.t.shape x.t.blocks e - (if Allowed x.t.shape x.t.rule k then c * alpha else 0) := by
  have hneg : ValueOf a (c * -alpha) := by
    cases a
    · obtain ⟨n, hn⟩ := hc
      exact ⟨-n, by rw [mul_neg, hn]; push_cast; rfl⟩
    · show (c * -alpha).im = 0
      rw [mul_neg, Complex.neg_im, (show (c * alpha).im = 0 from hc), neg_zero]
    · trivial
  obtain ⟨fuel, r, r', h1, h2, h3, h4, h5, h6, h7, h8, -, -, h9⟩ := C126_add_partial a x hx cx hpos c (-alpha) hneg
  refine ⟨fuel, r, r', h1, h2, h3, h4, h5, h6, h7, h8, fun e k o hl => ?_⟩
  obtain ⟨p, q⟩ := h9 e k o hl
  rw [p, q]
  constructor <;> split <;> ring

/-- **C126 fails** for fractions and tensors of integers: the number is cut, so that no allowed entry grows by it.  With
`mul` the same number gives the product. -/
theorem C126_fraction_fails [AddCommGroup G] [DecidableEq G] (l : Bool) (x : TT G) (hx : OfType (.int l) x)
    (cx : Conserving x.t.shape x.t.rule x.t.blocks) (hpos : ∀ d ∈ x.t.shape, d ≠ []) (c alpha : ℝ) (hc : ∀ n : ℤ, c * alpha ≠ n) :
    ∃ fuel r r', addNumT c alpha fuel x = some (.ok r) ∧ addNumInT c alpha fuel x = some (.ok r') ∧
      ∀ e k o, locateAll x.t.shape e = some (k, o) → Allowed x.t.shape x.t.rule k →
        (∃ n m : ℤ, entry r.t.shape r.t.blocks e = n ∧ entry x.t.shape x.t.blocks e = m) ∧
        entry r.t.shape r.t.blocks e ≠ entry x.t.shape x.t.blocks e + c * alpha ∧
        entry r'.t.shape r'.t.blocks e ≠ entry x.t.shape x.t.blocks e + c * alpha := by
  classical
  obtain ⟨fuel, r, r', h1, h2, h3, h4, h5, h6, h7, h8, -, -, h9⟩ := addNum_converted (.int l) x hx cx hpos c alpha (.inl (by simp))
  have hne : cast (.int l) ((c : ℂ) * alpha) ≠ (c : ℂ) * alpha := by
    rw [Ne, cast_eq]
    rintro ⟨n, hn⟩
    refine hc n ?_
    have : ((c * alpha : ℝ) : ℂ) = ((n : ℝ) : ℂ) := by push_cast; exact hn
    exact_mod_cast this
  refine ⟨fuel, r, r', h1, h2, fun e k o hl hk => ?_⟩
  obtain ⟨p, q⟩ := h9 e k o hl
  rw [if_pos hk] at p q
  refine ⟨?_, fun h => hne ?_, fun h => hne ?_⟩
  · obtain ⟨n, hn⟩ := ofType_all h3 e
    obtain ⟨m, hm⟩ := ofType_all hx e
    exact ⟨n, m, hn, hm⟩
  · rw [p] at h; exact add_left_cancel h
  · rw [q] at h; exact add_left_cancel h

/-- **C126 fails** for complex numbers and tensors of real numbers or integers: the sums throw if the rule allows any block. -/
theorem C126_complex_fails [AddCommGroup G] [DecidableEq G] (x : TT G) (ho : isComplex x.opt = false) (hpos : ∀ d ∈ x.t.shape, d ≠ [])
    (c alpha : ℂ) (hc : (c * alpha).im ≠ 0) (k : List Nat) (hk : Allowed x.t.shape x.t.rule k) :
    ∃ fuel, addNumT c alpha fuel x = some (Res.throw .runtimeError) ∧ addNumInT c alpha fuel x = some (Res.throw .runtimeError) := by
  obtain ⟨-, h⟩ := C126_full none (c * alpha) x hpos
  obtain ⟨fuel, hf⟩ := h (by rintro (h | h); exacts [hc h, by simp [ho] at h]) k hk
  exact ⟨fuel, by simp only [addNumT, numMul, hf]; rfl, by simp only [addNumInT, numMul, hf]; rfl⟩

/-- Integers on the diagonal: adding one half changes nothing. -/
example (l : Bool) : ∃ fuel r r', addNumT ((1 / 2 : ℝ) : ℂ) ((1 : ℝ) : ℂ) fuel (cellT 0 3 (.int l)) = some (.ok r) ∧
    addNumInT ((1 / 2 : ℝ) : ℂ) ((1 : ℝ) : ℂ) fuel (cellT 0 3 (.int l)) = some (.ok r') ∧
    entry r.t.shape r.t.blocks [0, 0] = 3 := by
  classical
  obtain ⟨fuel, r, r', h1, h2, -, -, -, -, -, -, -, -, h9⟩ := addNum_converted (.int l) (cellT 0 3 (.int l))
    (cellT_ofType 0 3 _ ⟨3, by norm_num⟩) (cellT_conserving 0 (by norm_num) 3 _) (by simp [cellT]) ((1 / 2 : ℝ) : ℂ) ((1 : ℝ) : ℂ) (.inl (by simp))
  refine ⟨fuel, r, r', h1, h2, ?_⟩
  have hcst : cast (.int l) (((1 / 2 : ℝ) : ℂ) * ((1 : ℝ) : ℂ)) = 0 := by
    have : (((1 / 2 : ℝ) : ℂ) * ((1 : ℝ) : ℂ)).re = 1 / 2 := by rw [← Complex.ofReal_mul, Complex.ofReal_re]; norm_num
    simp only [cast, this, trunc]
    norm_num
  have hl : ∃ k o, locateAll (cellT 0 3 (.int l)).t.shape [0, 0] = some (k, o) := by
    obtain ⟨⟨k, o⟩, h⟩ := locateAll_isSome.mpr (cellT_inRange 0 (by norm_num) 3 (.int l))
    exact ⟨k, o, h⟩
  obtain ⟨k, o, hl⟩ := hl
  rw [(h9 _ k o hl).1, hcst, cellT_entry 0 (by norm_num), ite_self, add_zero]

/-- The same tensor with real entries: the entry becomes three and a half. -/
example (l : Bool) : ∃ fuel r r', addNumT ((1 / 2 : ℝ) : ℂ) ((1 : ℝ) : ℂ) fuel (cellT 0 3 (.real l)) = some (.ok r) ∧
    addNumInT ((1 / 2 : ℝ) : ℂ) ((1 : ℝ) : ℂ) fuel (cellT 0 3 (.real l)) = some (.ok r') := by
  obtain ⟨fuel, r, r', h1, h2, -⟩ := C126_add_partial (.real l) (cellT 0 3 (.real l))
    (cellT_ofType 0 3 _ (by simp [ValueOf])) (cellT_conserving 0 (by norm_num) 3 _) (by simp [cellT]) ((1 / 2 : ℝ) : ℂ) ((1 : ℝ) : ℂ) (by simp [ValueOf])
  exact ⟨fuel, r, r', h1, h2⟩

/-- The imaginary unit cannot be added to a real tensor. -/
example (l : Bool) : ∃ fuel, addNumT Complex.I 1 fuel (cellT 0 3 (.real l)) = some (Res.throw .runtimeError) := by
  obtain ⟨fuel, h, -⟩ := C126_complex_fails (cellT 0 3 (.real l)) rfl (by simp [cellT]) Complex.I 1 (by simp) [0, 0]
    ⟨[(1, 0), (1, 0)], rfl, rfl⟩
  exact ⟨fuel, h⟩

end TY
end QuantiT
