import Verif.Props.Numbers
/-
Products and quotients in place with a number (C127).
-/
namespace QuantiT
namespace TY
open Spec BT Finset
variable {G : Type}

theorem mulBlocksIn_all (dflt : Bool) (ty : List Nat → DT) (nt : DT) (v : ℂ) : ∀ l : List (List Nat × Blk ℂ),
    (∀ k b, (k, b) ∈ l → canCast (withNumber dflt (ty k) nt) (ty k) = true) →
    mulBlocksIn dflt ty nt v l = (l.map fun kb => (kb.1, ⟨kb.2.dims, fun o => kb.2.f o * v⟩), true)
  | [], _ => rfl
  | (k, b) :: l, h => by
    have ih := mulBlocksIn_all dflt ty nt v l fun k' b' hk => h k' b' (List.mem_cons_of_mem _ hk)
    simp only [mulBlocksIn, h k b (List.mem_cons_self ..), if_true, ih, List.map_cons]

theorem mulBlocksIn_none (dflt : Bool) (ty : List Nat → DT) (nt : DT) (v : ℂ) (l : List (List Nat × Blk ℂ)) (hl : l ≠ [])
    (h : ∀ k b, (k, b) ∈ l → canCast (withNumber dflt (ty k) nt) (ty k) = false) : mulBlocksIn dflt ty nt v l = (l, false) := by
  rcases l with _ | ⟨⟨k, b⟩, l⟩
  · exact absurd rfl hl
  · simp only [mulBlocksIn, h k b (List.mem_cons_self ..), Bool.false_eq_true, if_false]

/-- Types in the order integer, real, complex. -/
def Kind : DT → Nat
  | .int _ => 0
  | .real _ => 1
  | .complex _ => 2

theorem canCast_withNumber (dflt : Bool) (a ct : DT) : canCast (withNumber dflt a ct) a = decide (Kind ct ≤ Kind a) := by
  cases a <;> cases ct <;> simp [withNumber, canCast, Kind]

/-- A number of a kind not above that of the tensor: the product stays in the type. -/
theorem valueOf_kind {a ct : DT} {c : ℂ} (h : Kind ct ≤ Kind a) (hc : ValueOf ct c) : ValueOf a c := by
  cases a <;> cases ct <;> simp_all [Kind, ValueOf]
  obtain ⟨n, rfl⟩ := hc
  simp

/-- Every entry times `v`, all else as it was. -/
theorem mapped_entries [AddCommGroup G] [DecidableEq G] {a : DT} {x : TT G} (hx : OfType a x) (v : ℂ) (hv : ValueOf a v) :
    OfType a ⟨⟨x.t.shape, x.t.rule, x.t.blocks.map fun kb => (kb.1, (⟨kb.2.dims, fun o => kb.2.f o * v⟩ : Blk ℂ))⟩, x.opt, x.ty⟩ ∧
      ∀ e, entry x.t.shape (x.t.blocks.map fun kb => (kb.1, (⟨kb.2.dims, fun o => kb.2.f o * v⟩ : Blk ℂ))) e = entry x.t.shape x.t.blocks e * v := by
  have he : ∀ e, entry x.t.shape (x.t.blocks.map fun kb => (kb.1, (⟨kb.2.dims, fun o => kb.2.f o * v⟩ : Blk ℂ))) e =
      entry x.t.shape x.t.blocks e * v := fun e => entry_mapBlocks (· * v) (by simp) x.t e
  refine ⟨⟨hx.declared, fun k b hk => ?_, fun e _ => ?_⟩, he⟩
  · obtain ⟨kb, h1, h2⟩ := List.mem_map.1 hk
    have : kb.1 = k := congrArg Prod.fst h2
    exact hx.stored k kb.2 (by rw [← this]; exact h1)
  · show ValueOf a (entry x.t.shape _ e)
    rw [he]
    exact valueOf_mul (ofType_all hx e) hv

/-- **C127.**  `t.mul_(c)` for a tensor of one element type that holds blocks: if the type of the number is not above that of the
tensor (integer, real, complex), every entry is multiplied by `c` and the type stays; otherwise the call throws and leaves the
tensor as it was. -/
theorem C127_mul [AddCommGroup G] [DecidableEq G] (dflt : Bool) (a ct : DT) (x : TT G) (hx : OfType a x) (c : ℂ) (hc : ValueOf ct c) :
    (Kind ct ≤ Kind a → ∃ r, mulNumInT dflt x c ct = (r, none) ∧ OfType a r ∧ r.t.shape = x.t.shape ∧ r.t.rule = x.t.rule ∧
      ∀ e, entry r.t.shape r.t.blocks e = entry x.t.shape x.t.blocks e * c) ∧
    (Kind a < Kind ct → x.t.blocks ≠ [] → mulNumInT dflt x c ct = (x, some .runtimeError)) := by
  refine ⟨fun h => ?_, fun h hb => ?_⟩
  · have h1 := mulBlocksIn_all dflt x.ty ct c x.t.blocks fun k b hk => by
      rw [hx.stored k b hk, canCast_withNumber, decide_eq_true h]
    obtain ⟨p, q⟩ := mapped_entries hx c (valueOf_kind h hc)
    refine ⟨_, Prod.ext rfl (by simp only [mulNumInT, h1, if_true]), ?_, rfl, rfl, fun e => ?_⟩
    · simpa only [mulNumInT, h1] using p
    · simpa only [mulNumInT, h1] using q e
  · have h1 := mulBlocksIn_none dflt x.ty ct c x.t.blocks hb fun k b hk => by
      rw [hx.stored k b hk, canCast_withNumber, decide_eq_false (by omega)]
    simp only [mulNumInT, h1, Bool.false_eq_true, if_false]

/-- **C127.**  `t.div_(c)` for a tensor of real or complex numbers and a number `c ≠ 0` that its type holds, whatever the type of the number:
every entry is divided by `c` and the type stays. -/
theorem C127_div_partial [AddCommGroup G] [DecidableEq G] (dflt : Bool) (a : DT) (ha : 1 ≤ Kind a) (x : TT G) (hx : OfType a x) (c : ℂ) (h0 : c ≠ 0)
    (hc : ValueOf a c) :
    ∃ r, divNumInT dflt x c = (r, none) ∧ OfType a r ∧ r.t.shape = x.t.shape ∧ r.t.rule = x.t.rule ∧
      ∀ e, entry r.t.shape r.t.blocks e = entry x.t.shape x.t.blocks e / c := by
  have hai : ∀ l, a ≠ .int l := by rintro l rfl; simp [Kind] at ha
  have hf : fillValue x.opt c = .ok c := by
    rw [hx.declared, ← (cast_eq a c).2 hc, fillValue, if_pos]
    · rw [(cast_eq a c).2 hc, (cast_eq a c).2 hc]
    · rw [(cast_eq a c).2 hc]; exact fits_of_value hc
  have hd : divided dflt x.opt = a := by
    rw [hx.declared]
    cases a
    · exact absurd rfl (hai _)
    · rfl
    · rfl
  have h1 := mulBlocksIn_all dflt x.ty a (1 / c) x.t.blocks fun k b hk => by
    rw [hx.stored k b hk, canCast_withNumber, decide_eq_true le_rfl]
  obtain ⟨p, q⟩ := mapped_entries hx (1 / c) (valueOf_div hai (valueOf_one a) hc)
  refine ⟨_, Prod.ext rfl (by simp only [divNumInT, hf, hd, h1, if_true]), ?_, ?_, ?_, fun e => ?_⟩
  · simpa only [divNumInT, hf, hd, h1] using p
  · simp only [divNumInT, hf]
  · simp only [divNumInT, hf]
  · have := q e
    simp only [divNumInT, hf, hd, h1]
    rw [this, mul_one_div]

/-- **C127 fails** for tensors of integers, as in torch: `t.div_(c)` throws for every number, also when every entry is a multiple of it, and leaves the
tensor as it was. -/
theorem C127_div_integer_fails (dflt l : Bool) (x : TT G) (hx : OfType (.int l) x) (hb : x.t.blocks ≠ []) (c : ℂ) :
    divNumInT dflt x c = (x, some .runtimeError) := by
  rcases hf : fillValue x.opt c with e | v
  · simp only [divNumInT, hf]
  · have hd : divided dflt x.opt = .real dflt := by rw [hx.declared]; rfl
    have h1 := mulBlocksIn_none dflt x.ty (.real dflt) (1 / v) x.t.blocks hb fun k b hk => by
      rw [hx.stored k b hk, canCast_withNumber]; simp [Kind]
    simp only [divNumInT, hf, hd, h1, Bool.false_eq_true, if_false]

/-- **C127.**  `t.div_(c)` for a real tensor and a number with an imaginary part throws and leaves the tensor as it was. -/
theorem C127_div_complex (dflt : Bool) (x : TT G) (ho : isComplex x.opt = false) (c : ℂ) (hc : c.im ≠ 0) :
    divNumInT dflt x c = (x, some .runtimeError) := by
  have hf : fillValue x.opt c = Res.throw .runtimeError := if_neg (by rintro (h | h); exacts [hc h, by simp [ho] at h])
  simp only [divNumInT, hf, Res.throw]

/-- **C127 fails** for tensors with blocks of several types: the sum of a complex and a real tensor can be a tensor whose product in place
with the imaginary unit throws after the first block was multiplied. -/
theorem C127_mixed_fails (l : Bool) : ∃ z r, addT (cellT 0 1 (.complex l)) (cellT 1 1 (.real l)) = .ok z ∧
    mulNumInT true z Complex.I (.complex true) = (r, some .runtimeError) ∧
      entry z.t.shape z.t.blocks [0, 0] = 1 ∧ entry z.t.shape z.t.blocks [1, 1] = 1 ∧
      entry r.t.shape r.t.blocks [0, 0] = Complex.I ∧ entry r.t.shape r.t.blocks [1, 1] = 1 := by
  have hadd : BT.add (cellT 0 1 (.complex l)).t (cellT 1 1 (.real l)).t 1 = .ok
      ⟨[[(1, 0), (1, 1)], [(1, 0), (1, -1)]], 0, [([0, 0], scaleBlk 1 ⟨[1, 1], fun _ => 1⟩), ([1, 1], scaleBlk 1 ⟨[1, 1], fun _ => 1⟩)]⟩ := by
    unfold BT.add
    have h0 : addCheck (cellT 0 1 (.complex l)).t (cellT 1 1 (.real l)).t = .ok () := addCheck_same _ _ rfl rfl
    rw [h0]
    simp only [bind, Except.bind, cellT, merge_cells]
  have hl0 : locateAll ([[(1, 0), (1, 1)], [(1, 0), (1, -1)]] : Shape ℤ) [0, 0] = some ([0, 0], [0, 0]) := by decide
  have hl1 : locateAll ([[(1, 0), (1, 1)], [(1, 0), (1, -1)]] : Shape ℤ) [1, 1] = some ([1, 1], [0, 0]) := by decide
  refine ⟨_, _, by simp only [addT, hadd, bind, Except.bind]; rfl, Prod.ext rfl ?_, ?_, ?_, ?_, ?_⟩
  · rfl
  · simp [entry, hl0, lookup, scaleBlk]
  · simp [entry, hl1, lookup, scaleBlk]
  · simp [mulNumInT, mulBlocksIn, entry, hl0, lookup, scaleBlk, cellT, canCast, withNumber]
  · simp [mulNumInT, mulBlocksIn, entry, hl1, lookup, scaleBlk, cellT, canCast, withNumber]

/-- A real tensor: halved in place, and not multiplied by the imaginary unit. -/
example (l dflt : Bool) : (∃ r, divNumInT dflt (cellT 0 3 (.real l)) 2 = (r, none) ∧ entry r.t.shape r.t.blocks [0, 0] = 3 / 2) ∧
    mulNumInT dflt (cellT 0 3 (.real l)) Complex.I (.complex true) = (cellT 0 3 (.real l), some .runtimeError) ∧
    ∃ r, mulNumInT dflt (cellT 0 3 (.real l)) 2 (.int true) = (r, none) ∧ entry r.t.shape r.t.blocks [0, 0] = 6 := by
  have hx : OfType (.real l) (cellT 0 3 (.real l)) := cellT_ofType 0 3 _ (by simp [ValueOf])
  obtain ⟨r, r1, -, -, -, r5⟩ := C127_div_partial dflt (.real l) le_rfl _ hx 2 (by norm_num) (by simp [ValueOf])
  obtain ⟨-, h2⟩ := C127_mul dflt (.real l) (.complex true) _ hx Complex.I trivial
  obtain ⟨h3, -⟩ := C127_mul dflt (.real l) (.int true) _ hx 2 ⟨2, by norm_num⟩
  obtain ⟨q, q1, -, -, -, q5⟩ := h3 (by simp [Kind])
  refine ⟨⟨r, r1, ?_⟩, h2 (by simp [Kind]) (by simp [cellT]), q, q1, ?_⟩
  · rw [r5, cellT_entry 0 (by norm_num)]
  · rw [q5, cellT_entry 0 (by norm_num)]; norm_num

end TY
end QuantiT
