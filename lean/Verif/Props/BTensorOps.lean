import Verif.Lemmas.Permute
import Verif.Props.BTensor
import Verif.Lemmas.Sums
import Mathlib.Tactic.Abel
/-
C20-C22, C27-C29, C34, C60, C63: permutation, addition, charges, reductions.
-/
set_option linter.unusedSectionVars false
namespace QuantiT.BT
open QuantiT.Spec
variable {G R : Type}

/-! ### C20 -/

section permute
variable [AddCommMonoid G] [DecidableEq G]

/-- Permuting a conserving tensor by a permutation `p` (entries given directly or as negative numbers)
succeeds, permutes the dimensions, keeps the rule and conservation, and moves every entry to the permuted
multi-index. -/
theorem C20_permute [Zero R] (t : BT G R) (hc : Conserving t.shape t.rule t.blocks) (p : List Nat) (inp : List Int)
    (hp : p.Perm (List.range t.shape.length)) (hi : Spells t.shape.length inp p) :
    ∃ t', permute t inp = .ok t' ∧ gather p t.shape = some t'.shape ∧ t'.rule = t.rule ∧
      Conserving t'.shape t'.rule t'.blocks ∧
      ∀ e e', InRange e (t.shape.map dimSize) → gather p e = some e' →
        entry t'.shape t'.blocks e' = entry t.shape t.blocks e := by
  obtain ⟨sh', hsh⟩ := gather_isSome (l := t.shape) (p := p) (perm_range_lt hp)
  obtain ⟨h1, h2⟩ := permute_eq hc (normDims_eq hi (perm_range_length hp)) hp hsh
  refine ⟨_, h1, hsh, rfl, h2, ?_⟩
  intro e e' he hg
  obtain ⟨⟨b, o⟩, hl⟩ := locateAll_isSome.mpr he
  obtain ⟨le, lb, lo⟩ := locateAll_length hl
  obtain ⟨b', hb'⟩ := gather_isSome (l := b) (p := p) (by rw [lb]; exact perm_range_lt hp)
  obtain ⟨o', ho'⟩ := gather_isSome (l := o) (p := p) (by rw [lo]; exact perm_range_lt hp)
  simp only [entry, locateAll_gather hl hsh hg hb' ho', hl, permute_lookup hc hp hsh h2 hb' lb]
  rcases lookup t.blocks b with _ | blk
  · rfl
  · simp only [Option.map_some, permKB]
    rw [ungather_gather (by rw [lo]; exact hp) ho']

example : [2, 0, 1].Perm (List.range 3) ∧ Spells 3 [-1, 0, 1] [2, 0, 1] :=
  ⟨by decide, .cons (by decide) (.cons (by decide) (.cons (by decide) .nil))⟩

theorem gather_gather {α : Type} {p q r : List Nat} {l l' : List α} (h1 : gather p l = some l') (h2 : gather q p = some r) :
    gather q l' = gather r l := by
  induction q generalizing r with
  | nil => rw [gather_nil] at h2; cases h2; rfl
  | cons j q ih =>
    obtain ⟨x, r', hx, hr', rfl⟩ := gather_cons.mp h2
    have := gather_getElem? h1 hx
    simp only [gather, List.mapM_cons] at ih ⊢
    rw [this, ih hr']

theorem sameBlocks_of_lookup : ∀ {m m' : FM (List Nat) (Blk R)}, Sorted m → Sorted m' →
    (∀ k, (lookup m k).isSome = (lookup m' k).isSome) →
    (∀ k a b, lookup m k = some a → lookup m' k = some b → SameBlk a b) → SameBlocks m m'
  | [], [], _, _, _, _ => .nil
  | [], x :: m', _, _, h, _ => by have := h x.1; simp [lookup] at this
  | x :: m, [], _, _, h, _ => by have := h x.1; simp [lookup] at this
  | x :: m, y :: m', hs, hs', h, hb => by
    obtain ⟨hx, hsm⟩ := sorted_cons.mp hs
    obtain ⟨hy, hsm'⟩ := sorted_cons.mp hs'
    have hxy : x.1 = y.1 := by
      by_contra hne
      rcases lt_or_gt_of_ne hne with hlt | hlt
      · have h1 := h x.1
        have h2 : lookup (y :: m') x.1 = none := by
          apply lookup_none_of_gt
          intro z hz
          rcases List.mem_cons.mp hz with rfl | hz
          · exact hlt
          · exact hlt.trans (hy z hz)
        rw [h2, lookup_cons] at h1; simp at h1
      · have h1 := h y.1
        have h2 : lookup (x :: m) y.1 = none := by
          apply lookup_none_of_gt
          intro z hz
          rcases List.mem_cons.mp hz with rfl | hz
          · exact hlt
          · exact hlt.trans (hx z hz)
        rw [h2, lookup_cons] at h1; simp at h1
    refine .cons ⟨hxy, hb x.1 x.2 y.2 (by rw [lookup_cons]; simp) (by rw [lookup_cons]; simp [hxy])⟩ ?_
    refine sameBlocks_of_lookup hsm hsm' ?_ ?_
    · intro k
      by_cases hk : x.1 = k
      · subst hk
        rw [lookup_none_of_gt hx, lookup_none_of_gt (by rw [hxy]; exact hy)]
      · have := h k
        rw [lookup_cons, lookup_cons, if_neg hk, if_neg (by rw [← hxy]; exact hk)] at this
        exact this
    · intro k a b ha hb'
      have hk : x.1 ≠ k := by
        rintro rfl; rw [lookup_none_of_gt hx] at ha; cases ha
      exact hb k a b (by rw [lookup_cons, if_neg hk]; exact ha)
        (by rw [lookup_cons, if_neg (by rw [← hxy]; exact hk)]; exact hb')

/-- Permuting by `p` and then by its inverse `q` restores the tensor: shape, rule, stored indices and
block contents. -/
theorem C20_inverse (t : BT G R) (hc : Conserving t.shape t.rule t.blocks) (p q : List Nat) (inp inq : List Int)
    (hp : p.Perm (List.range t.shape.length)) (hi : Spells t.shape.length inp p)
    (hq : gather q p = some (List.range t.shape.length)) (hj : Spells t.shape.length inq q) :
    ∃ t' t'', permute t inp = .ok t' ∧ permute t' inq = .ok t'' ∧
      t''.shape = t.shape ∧ t''.rule = t.rule ∧ SameBlocks t''.blocks t.blocks := by
  obtain ⟨sh', hsh⟩ := gather_isSome (l := t.shape) (p := p) (perm_range_lt hp)
  obtain ⟨h1, h2⟩ := permute_eq hc (normDims_eq hi (perm_range_length hp)) hp hsh
  have hlen : sh'.length = t.shape.length := by rw [gather_length hsh, perm_range_length hp]
  have hql : q.length = t.shape.length := by simpa using (gather_length hq).symm
  have hsh2 : gather q sh' = some t.shape := by rw [gather_gather hsh hq]; exact gather_range _
  -- the inverse is a permutation as well
  have hqlt : ∀ j ∈ q, j < t.shape.length := by
    intro j hj'
    obtain ⟨n, hn, rfl⟩ := List.getElem_of_mem hj'
    have h := List.forall₂_iff_get.mp hj
    exact (h.2 n (by rw [h.1]; exact hn) hn).1
  have hqnd : q.Nodup := by
    rw [List.nodup_iff_injective_get]
    rintro ⟨a, ha⟩ ⟨b, hb⟩ hab
    simp only [List.get_eq_getElem] at hab
    have e1 := gather_getElem? hq (List.getElem?_eq_getElem ha)
    have e2 := gather_getElem? hq (List.getElem?_eq_getElem hb)
    rw [hab, ← e2, List.getElem?_range (by omega), List.getElem?_range (by omega)] at e1
    simpa using e1
  have hqp : q.Perm (List.range t.shape.length) := perm_range_of hqnd hql hqlt
  have hqp' : q.Perm (List.range sh'.length) := by rw [hlen]; exact hqp
  obtain ⟨g1, g2⟩ := permute_eq (t := ⟨sh', t.rule, sortKeys (t.blocks.map (permKB p))⟩) h2 (normDims_eq (hlen ▸ hj) (by rw [hql, hlen])) hqp' hsh2
  refine ⟨_, _, h1, g1, rfl, rfl, ?_⟩
  simp only at g2 ⊢
  have hlook : ∀ k, k.length = t.shape.length →
      lookup (sortKeys ((sortKeys (t.blocks.map (permKB p))).map (permKB q))) k =
        (lookup t.blocks k).map fun b => (permKB q ((gather p k).getD [], (permKB p (k, b)).2)).2 := by
    intro k hk
    obtain ⟨k', hk'⟩ := gather_isSome (l := k) (p := p) (by rw [hk]; exact perm_range_lt hp)
    have hback : gather q k' = some k := by
      rw [gather_gather hk' hq, ← hk]; exact gather_range k
    have e1 := permute_lookup (t := ⟨sh', t.rule, sortKeys (t.blocks.map (permKB p))⟩) h2 hqp' hsh2 g2 hback
      (by rw [gather_length hk', perm_range_length hp, hlen])
    simp only at e1
    rw [e1, permute_lookup hc hp hsh h2 hk' hk]
    rcases lookup t.blocks k with _ | b
    · rfl
    · simp [hk']
  refine sameBlocks_of_lookup g2.sorted hc.sorted ?_ ?_
  · intro k
    by_cases hk : k.length = t.shape.length
    · rw [hlook k hk]; cases lookup t.blocks k <;> rfl
    · rcases ha : lookup (sortKeys ((sortKeys (t.blocks.map (permKB p))).map (permKB q))) k with _ | v
      · rcases hb : lookup t.blocks k with _ | w
        · rfl
        · obtain ⟨secs, hs, _⟩ := hc.block k w (mem_of_lookup hb)
          exact absurd (sections_length hs).1 hk
      · obtain ⟨secs, hs, _⟩ := g2.block k v (mem_of_lookup ha)
        exact absurd (sections_length hs).1 hk
  · intro k a b ha hb
    obtain ⟨secs, hs, _, hd⟩ := hc.block k b (mem_of_lookup hb)
    obtain ⟨hk, hsl⟩ := sections_length hs
    have hdl : b.dims.length = t.shape.length := by rw [hd, List.length_map, hsl]
    rw [hlook k hk, hb] at ha
    simp only [Option.map_some, Option.some.injEq] at ha
    subst ha
    obtain ⟨d', hd'⟩ := gather_isSome (l := b.dims) (p := p) (by rw [hdl]; exact perm_range_lt hp)
    have hback : gather q d' = some b.dims := by
      rw [gather_gather hd' hq, ← hdl]; exact gather_range _
    simp only [permKB, hd', Option.getD_some, hback]
    refine ⟨rfl, ?_⟩
    intro o ho
    have hol : o.length = t.shape.length := by rw [List.Forall₂.length_eq ho]; exact hdl
    obtain ⟨o', ho'⟩ := gather_isSome (l := o) (p := p) (by rw [hol]; exact perm_range_lt hp)
    have hob : gather q o' = some o := by rw [gather_gather ho' hq, ← hol]; exact gather_range _
    simp only
    have hol' : o'.length = t.shape.length := by rw [gather_length ho', perm_range_length hp]
    rw [ungather_gather (by rw [hol']; exact hqp) hob, ungather_gather (by rw [hol]; exact hp) ho']

example : gather [1, 2, 0] [2, 0, 1] = some (List.range 3) := by decide

/-- A list of dimensions with a repetition is rejected when the tensor stores a block. -/
theorem C20_reject_partial (t : BT G R) (hc : Conserving t.shape t.rule t.blocks) (hne : t.blocks ≠ []) (p : List Nat)
    (inp : List Int) (hi : Spells t.shape.length inp p) (hl : p.length = t.shape.length) (hp : ¬ p.Nodup) :
    permute t inp = Res.throw .runtimeError := by
  have hlt : ∀ j ∈ p, j < t.shape.length := by
    intro j hj
    obtain ⟨n, hn, rfl⟩ := List.getElem_of_mem hj
    have := List.forall₂_iff_get.mp hi
    exact (this.2 n (by rw [this.1]; exact hn) hn).1
  obtain ⟨sh', hsh⟩ := gather_isSome (l := t.shape) (p := p) hlt
  rcases hb : t.blocks with _ | ⟨⟨k, b⟩, rest⟩
  · exact absurd hb hne
  · obtain ⟨secs, h1, h2, h3⟩ := hc.block k b (by rw [hb]; simp)
    obtain ⟨l1, l2⟩ := sections_length h1
    obtain ⟨k', hk'⟩ := gather_isSome (l := k) (p := p) (by rw [l1]; exact hlt)
    obtain ⟨d', hd'⟩ := gather_isSome (l := b.dims) (p := p) (by rw [h3, List.length_map, l2]; exact hlt)
    have hbl : permBlk p b = Res.throw .runtimeError := by
      simp only [permBlk, hd']
      rw [if_neg (fun h => hp h.1)]
    simp only [permute, normDims_eq hi hl, hsh, orUb, hb, List.mapM_cons, hk', hbl, bind, Except.bind, Res.throw]

/-- On an empty tensor a repeated dimension is silently accepted, and so is (in a release build) a list that
is too short. -/
theorem C20_reject_fails :
    (∃ t t' : BT ℤ ℤ, permute t [0, 0] = .ok t' ∧ t.shape.length = 2 ∧ t'.shape ≠ t.shape) ∧
    (∀ t : BT G R, t.shape.length = 2 → permute t [1] = permute t [1, 0]) := by
  refine ⟨⟨⟨[[(1, 0)], [(2, 0)]], 0, []⟩, ⟨[[(1, 0)], [(1, 0)]], 0, []⟩, rfl, rfl, by decide⟩, ?_⟩
  intro t ht
  have : normDims 2 [1] = normDims 2 [1, 0] := by decide
  simp only [permute, ht, this]

/-- A dimension that does not exist is undefined behaviour. -/
theorem C20_range_fails (t : BT G R) (inp : List Int) (hl : inp.length = t.shape.length) (x : Int) (hx : x ∈ inp)
    (hr : x < -(t.shape.length : Int) ∨ (t.shape.length : Int) ≤ x) : permute t inp = Res.ub := by
  have : ∀ l : List Int, x ∈ l → (l.mapM fun (x : Int) =>
      let y : Int := if x < 0 then x + (t.shape.length : Int) else x
      if 0 ≤ y ∧ y < (t.shape.length : Int) then (.ok y.toNat : Res Nat) else Res.ub) = Res.ub := by
    intro l
    induction l with
    | nil => simp
    | cons a l ih =>
      intro hm
      rw [List.mapM_cons]
      by_cases ha : 0 ≤ (if a < 0 then a + (t.shape.length : Int) else a) ∧
          (if a < 0 then a + (t.shape.length : Int) else a) < (t.shape.length : Int)
      · have hax : x ≠ a := by
          rintro rfl
          split at ha <;> omega
        have hm' : x ∈ l := by simpa [hax] using hm
        rw [ih hm']
        simp [ha, bind, Except.bind, Res.ub]
      · simp [ha, bind, Except.bind, Res.ub]
  have hn : normDims t.shape.length inp = Res.ub := by
    simp only [normDims]
    rw [if_neg (by omega), hl, Nat.sub_self, List.replicate_zero, List.append_nil]
    exact this inp hx
  simp only [permute, hn, bind, Except.bind, Res.ub]

end permute

/-! ### C21, C22 -/

section add
variable [AddCommMonoid G] [DecidableEq G]

theorem addCheck_same [Semiring R] (a b : BT G R) (h : a.shape = b.shape) (hr : a.rule = b.rule) : addCheck a b = .ok () := by
  simp [addCheck, h, hr]

/-- Exact result of adding two conserving tensors of the same shape and rule: `a + alpha*b`, except that the
entries of `a` in blocks before all blocks of `b` are multiplied by `alpha`. -/
theorem C21_add_exact_partial [Semiring R] (a b : BT G R) (alpha : R) (ha : Conserving a.shape a.rule a.blocks)
    (hb : Conserving b.shape b.rule b.blocks) (hsh : a.shape = b.shape) (hr : a.rule = b.rule) :
    ∃ r, add a b alpha = .ok r ∧ r.shape = a.shape ∧ r.rule = a.rule ∧ Conserving r.shape r.rule r.blocks ∧
      ∀ e k o, locateAll a.shape e = some (k, o) →
        entry r.shape r.blocks e =
          if ∀ x ∈ b.blocks, k < x.1 then alpha * entry a.shape a.blocks e
          else entry a.shape a.blocks e + alpha * entry b.shape b.blocks e := by
  obtain ⟨m, h1, h2, h3⟩ := FM.C11_merge_exact_partial (addBlk alpha) (scaleBlk alpha) ha.sorted hb.sorted
  refine ⟨{ a with blocks := m }, ?_, rfl, rfl, ⟨h2, ?_⟩, ?_⟩
  · simp only [add, addCheck_same a b hsh hr, h1, bind, Except.bind]
  · intro k v hk
    have hl := lookup_of_mem h2 hk
    simp only [h3] at hl
    have key : ∀ w, lookup a.blocks k = some w ∨ lookup b.blocks k = some w → v.dims = w.dims →
        ∃ secs, sections a.shape k = some secs ∧ charge secs = a.rule ∧ v.dims = secs.map Prod.fst := by
      intro w hw hd
      rcases hw with hw | hw
      · obtain ⟨secs, x1, x2, x3⟩ := ha.block k w (mem_of_lookup hw)
        exact ⟨secs, x1, x2, by rw [hd, x3]⟩
      · obtain ⟨secs, x1, x2, x3⟩ := hb.block k w (mem_of_lookup hw)
        exact ⟨secs, by rw [hsh]; exact x1, by rw [hr]; exact x2, by rw [hd, x3]⟩
    rcases hla : lookup a.blocks k with _ | x <;> rcases hlb : lookup b.blocks k with _ | y <;>
      simp only [hla, hlb, mergeVal, Option.map_none, Option.map_some, ite_self] at hl
    · cases hl
    · split at hl
      · cases hl
      · cases hl; exact key y (.inr hlb) rfl
    all_goals rename_i x _ _
    · split at hl <;> (cases hl; exact key _ (.inl hla) rfl)
    · split at hl <;> (cases hl; exact key _ (.inl hla) rfl)
  · intro e k o hl
    have hl' : locateAll b.shape e = some (k, o) := by rw [← hsh]; exact hl
    simp only [entry, hl, hl', h3]
    rcases hla : lookup a.blocks k with _ | x <;> rcases hlb : lookup b.blocks k with _ | y
    · simp [mergeVal]
    · by_cases hc : ∀ x ∈ b.blocks, k < x.1
      · exact absurd (hc _ (mem_of_lookup hlb)) (lt_irrefl _)
      · rw [if_neg hc, if_neg hc]; simp [mergeVal, scaleBlk]
    · by_cases hc : ∀ x ∈ b.blocks, k < x.1
      · rw [if_pos hc, if_pos hc]; simp [scaleBlk]
      · rw [if_neg hc, if_neg hc]; simp [mergeVal]
    · by_cases hc : ∀ x ∈ b.blocks, k < x.1
      · exact absurd (hc _ (mem_of_lookup hlb)) (lt_irrefl _)
      · rw [if_neg hc, if_neg hc]; simp [mergeVal, addBlk]

/-- With `alpha = 1` (operator+, the default) the sum is right everywhere. -/
theorem C21_add_one_partial [Semiring R] (a b : BT G R) (ha : Conserving a.shape a.rule a.blocks)
    (hb : Conserving b.shape b.rule b.blocks) (hsh : a.shape = b.shape) (hr : a.rule = b.rule) :
    ∃ r, add a b 1 = .ok r ∧ r.shape = a.shape ∧ r.rule = a.rule ∧ Conserving r.shape r.rule r.blocks ∧
      ∀ e, InRange e (a.shape.map dimSize) →
        entry r.shape r.blocks e = entry a.shape a.blocks e + 1 * entry b.shape b.blocks e := by
  obtain ⟨r, h1, h2, h3, h4, h5⟩ := C21_add_exact_partial a b 1 ha hb hsh hr
  refine ⟨r, h1, h2, h3, h4, ?_⟩
  intro e he
  obtain ⟨⟨k, o⟩, hl⟩ := locateAll_isSome.mpr he
  rw [h5 e k o hl]
  split
  · rename_i hc
    have hn : lookup b.blocks k = none := lookup_none_of_gt hc
    have : entry b.shape b.blocks e = 0 := by
      simp only [entry, ← hsh, hl, hn]
    simp [this]
  · rfl

/-- For any `alpha` it is right when the first stored block of `a` is not before all blocks of `b`. -/
theorem C21_add_partial [Semiring R] (a b : BT G R) (alpha : R) (ha : Conserving a.shape a.rule a.blocks)
    (hb : Conserving b.shape b.rule b.blocks) (hsh : a.shape = b.shape) (hr : a.rule = b.rule)
    (hfirst : ∀ x ∈ a.blocks, ∃ y ∈ b.blocks, y.1 ≤ x.1) :
    ∃ r, add a b alpha = .ok r ∧ r.shape = a.shape ∧ r.rule = a.rule ∧ Conserving r.shape r.rule r.blocks ∧
      ∀ e, InRange e (a.shape.map dimSize) →
        entry r.shape r.blocks e = entry a.shape a.blocks e + alpha * entry b.shape b.blocks e := by
  obtain ⟨r, h1, h2, h3, h4, h5⟩ := C21_add_exact_partial a b alpha ha hb hsh hr
  refine ⟨r, h1, h2, h3, h4, ?_⟩
  intro e he
  obtain ⟨⟨k, o⟩, hl⟩ := locateAll_isSome.mpr he
  rw [h5 e k o hl]
  split
  · rename_i hc
    have hn : lookup b.blocks k = none := lookup_none_of_gt hc
    have h0 : entry b.shape b.blocks e = 0 := by
      simp only [entry, ← hsh, hl, hn]
    have ha0 : entry a.shape a.blocks e = 0 := by
      rcases hla : lookup a.blocks k with _ | x
      · simp only [entry, hl, hla]
      · obtain ⟨y, hy, hle⟩ := hfirst _ (mem_of_lookup hla)
        exact absurd (hc y hy) (not_lt.mpr hle)
    simp [h0, ha0]
  · rfl

/-- Subtraction of conserving tensors of equal shape can be wrong: `a - 0` negates `a` when `0` stores no
block, for every `a`. -/
theorem C21_add_fails [Ring R] (a : BT G R) (ha : Conserving a.shape a.rule a.blocks) :
    ∃ r, add a (sparseZeros a.shape a.rule) (-1) = .ok r ∧
      ∀ e, InRange e (a.shape.map dimSize) → entry r.shape r.blocks e = - entry a.shape a.blocks e := by
  obtain ⟨r, h1, _, _, _, h5⟩ := C21_add_exact_partial a (sparseZeros a.shape a.rule) (-1) ha
    ⟨.nil, by intro k b h; simp [sparseZeros] at h⟩ rfl rfl
  refine ⟨r, h1, ?_⟩
  intro e he
  obtain ⟨⟨k, o⟩, hl⟩ := locateAll_isSome.mpr he
  rw [h5 e k o hl, if_pos (by simp [sparseZeros])]
  simp

example : ∀ x ∈ ex18.blocks, ∃ y ∈ ex18.blocks, y.1 ≤ x.1 := fun x hx => ⟨x, hx, le_refl _⟩

/-- Two tensors whose dimensions have the same numbers of sections are accepted exactly when they have the
same shape and rule; otherwise `invalid_argument` is thrown. -/
theorem C22_same_counts_partial [Semiring R] (a b : BT G R) (hcnt : secCounts a.shape = secCounts b.shape) (alpha : R) :
    ¬ (a.shape = b.shape ∧ a.rule = b.rule) → add a b alpha = Res.throw .invalidArgument := by
  intro hne
  have hflat : a.shape.flatten.map Prod.snd = b.shape.flatten.map Prod.snd →
      a.shape.flatten.map Prod.fst = b.shape.flatten.map Prod.fst → a.shape = b.shape := by
    intro h1 h2
    have hf : a.shape.flatten = b.shape.flatten := by
      generalize a.shape.flatten = x at *
      generalize b.shape.flatten = y at *
      induction x generalizing y with
      | nil => cases y <;> simp_all
      | cons s x ih =>
        cases y with
        | nil => simp at h1
        | cons s' y =>
          simp only [List.map_cons, List.cons.injEq] at h1 h2
          rw [ih y h1.2 h2.2]
          congr 1
          exact Prod.ext h2.1 h1.1
    clear h1 h2 hne
    generalize a.shape = x at *
    generalize b.shape = y at *
    induction x generalizing y with
    | nil => cases y <;> simp_all [secCounts]
    | cons d x ih =>
      cases y with
      | nil => simp [secCounts] at hcnt
      | cons d' y =>
        simp only [secCounts, List.map_cons, List.cons.injEq] at hcnt
        simp only [List.flatten_cons] at hf
        obtain ⟨e1, e2⟩ := List.append_inj hf hcnt.1
        rw [e1, ih y hcnt.2 e2]
  have hchk : addCheck a b = Res.throw .invalidArgument := by
    simp only [addCheck]
    by_cases h1 : a.shape.flatten.map Prod.snd = b.shape.flatten.map Prod.snd
    · by_cases h2 : a.rule = b.rule
      · by_cases h3 : a.shape.flatten.map Prod.fst = b.shape.flatten.map Prod.fst
        · exact absurd ⟨hflat h1 h3, h2⟩ hne
        · rw [if_neg (not_not.mpr h1), if_neg (not_not.mpr h2), if_pos h3]
      · rw [if_neg (not_not.mpr h1), if_pos h2]
    · rw [if_pos h1]
  simp only [add, hchk, bind, Except.bind, Res.throw]

example : ¬ (ex18.shape = ([[(2, 0), (1, 1)], [(1, 0), (3, -1)]] : Shape ℤ) ∧ ex18.rule = 0) := by decide

/-- The division of the sections among the dimensions is not compared: tensors of different sizes are added
and leave a block outside the grid. -/
theorem C22_sections_fails : ∃ a b r : BT ℤ ℤ, Conserving a.shape a.rule a.blocks ∧
    Conserving b.shape b.rule b.blocks ∧ a.shape.map dimSize ≠ b.shape.map dimSize ∧ add a b 1 = .ok r ∧
    ¬ Conserving r.shape r.rule r.blocks := by
  refine ⟨⟨[[(1, 0), (1, 0)], [(1, 0)]], 0, []⟩, ⟨[[(1, 0)], [(1, 0), (1, 0)]], 0, [([0, 1], ⟨[1, 1], fun _ => 1⟩)]⟩,
    ⟨[[(1, 0), (1, 0)], [(1, 0)]], 0, [([0, 1], scaleBlk 1 ⟨[1, 1], fun _ => 1⟩)]⟩, ⟨.nil, by simp⟩, ⟨?_, ?_⟩, by decide, ?_, ?_⟩
  · exact List.pairwise_singleton _ _
  · intro k b h
    simp at h
    obtain ⟨rfl, rfl⟩ := h
    exact ⟨[(1, 0), (1, 0)], rfl, rfl, rfl⟩
  · rfl
  · intro h
    obtain ⟨secs, h1, _⟩ := h.block [0, 1] _ (List.mem_singleton.mpr rfl)
    have : (none : Option (List (Nat × ℤ))) = some secs := h1
    cases this

end add

/-! ### C27, C28, C29 -/

section charges
variable [AddCommGroup G] [DecidableEq G]

theorem sections_mapCharge (f : Nat × G → Nat × G) : ∀ {shape : Shape G} {k secs}, sections shape k = some secs →
    sections (shape.map (List.map f)) k = some (secs.map f)
  | [], [], secs, h => by simp [sections] at h; subst h; rfl
  | [], _ :: _, _, h => by simp [sections] at h
  | _ :: _, [], _, h => by simp [sections] at h
  | d :: ds, b :: bs, secs, h => by
    obtain ⟨s, r, h1, h2, rfl⟩ := sections_cons.mp h
    exact sections_cons.mpr ⟨f s, r.map f, by rw [List.getElem?_map, h1]; rfl, sections_mapCharge f h2, rfl⟩

theorem locate_mapCharge (f : Nat × G → Nat × G) (hf : ∀ s, (f s).1 = s.1) (d : Dim G) (e : Nat) :
    locate (d.map f) e = locate d e := by
  induction d generalizing e with
  | nil => rfl
  | cons s d ih => simp [locate, hf, ih]

theorem locateAll_mapCharge (f : Nat × G → Nat × G) (hf : ∀ s, (f s).1 = s.1) : ∀ (shape : Shape G) (e : List Nat),
    locateAll (shape.map (List.map f)) e = locateAll shape e
  | [], [] => rfl
  | [], _ :: _ => rfl
  | _ :: _, [] => rfl
  | d :: ds, e :: es => by
    simp only [List.map_cons, locateAll, locate_mapCharge f hf, locateAll_mapCharge f hf ds es]

theorem sum_neg (l : List (Nat × G)) : charge (l.map fun s => (s.1, -s.2)) = - charge l := by
  induction l with
  | nil => simp [charge]
  | cons s l ih =>
    simp only [charge, List.map_cons, List.sum_cons] at ih ⊢
    rw [ih, neg_add]

/-- Inverting the charges keeps conservation and every entry, inverts the rule, and undoes itself. -/
theorem C27_inverse [Zero R] (t : BT G R) :
    (Conserving t.shape t.rule t.blocks →
      Conserving (inverseCvals t).shape (inverseCvals t).rule (inverseCvals t).blocks) ∧
    (∀ e, entry (inverseCvals t).shape (inverseCvals t).blocks e = entry t.shape t.blocks e) ∧
    (inverseCvals t).rule = -t.rule ∧
    inverseCvals (inverseCvals t) = t := by
  refine ⟨?_, ?_, rfl, ?_⟩
  · intro hc
    refine ⟨hc.sorted, ?_⟩
    intro k b h
    obtain ⟨secs, h1, h2, h3⟩ := hc.block k b h
    refine ⟨_, sections_mapCharge _ h1, ?_, ?_⟩
    · rw [sum_neg, h2]; rfl
    · rw [h3, List.map_map]; rfl
  · intro e
    simp only [entry, inverseCvals, locateAll_mapCharge (fun s : Nat × G => (s.1, -s.2)) (fun _ => rfl)]
  · simp [inverseCvals, Function.comp_def]

theorem entry_mapBlocks {S : Type} [Zero R] [Zero S] (g : R → S) (hg : g 0 = 0) (t : BT G R) (e : List Nat) :
    entry (mapBlocks g t).shape (mapBlocks g t).blocks e = g (entry t.shape t.blocks e) := by
  have hl : ∀ k, lookup (mapBlocks g t).blocks k = (lookup t.blocks k).map fun b => ⟨b.dims, fun o => g (b.f o)⟩ := by
    intro k
    exact FM.lookup_map_snd (fun b : Blk R => (⟨b.dims, fun o => g (b.f o)⟩ : Blk S)) t.blocks k
  simp only [entry, hl]
  simp only [mapBlocks]
  rcases locateAll t.shape e with _ | p
  · simp [hg]
  · rcases hk : lookup t.blocks p.1 with _ | b <;> simp [hk, hg]

/-- Conjugation (by an involution `c` of the coefficients that fixes 0) conjugates every entry, inverts the
charges, keeps conservation, and undoes itself. -/
theorem C27_conj [Zero R] (c : R → R) (h0 : c 0 = 0) (hcc : ∀ x, c (c x) = x) (t : BT G R) :
    (Conserving t.shape t.rule t.blocks → Conserving (conj c t).shape (conj c t).rule (conj c t).blocks) ∧
    (∀ e, entry (conj c t).shape (conj c t).blocks e = c (entry t.shape t.blocks e)) ∧
    (conj c t).rule = -t.rule ∧
    conj c (conj c t) = t := by
  refine ⟨?_, ?_, rfl, ?_⟩
  · intro hc
    refine (C27_inverse (mapBlocks c t)).1 ⟨?_, ?_⟩
    · exact FM.sorted_map_snd (g := fun b : Blk R => (⟨b.dims, fun o => c (b.f o)⟩ : Blk R)) hc.sorted
    · intro k b h
      obtain ⟨⟨k0, b0⟩, hm, he⟩ := List.mem_map.mp h
      cases he
      exact hc.block k0 b0 hm
  · intro e
    rw [conj, (C27_inverse (mapBlocks c t)).2.1, entry_mapBlocks c h0]
  · have : mapBlocks c (mapBlocks c t) = t := by
      simp [mapBlocks, Function.comp_def, hcc]
    have h2 : conj c (conj c t) = inverseCvals (inverseCvals (mapBlocks c (mapBlocks c t))) := rfl
    rw [h2, this, (C27_inverse t).2.2.2]

example : (fun x : ℤ => x) 0 = 0 ∧ (inverseCvals ex18).shape = [[(2, 0), (1, -1)], [(1, 0), (2, 1)]] := by decide

theorem sections_shift : ∀ {shape : Shape G} {k secs} (shift : G) (dim : Nat) (d : Dim G), shape[dim]? = some d →
    sections shape k = some secs →
    ∃ secs', sections (shape.set dim (d.map fun s => (s.1, s.2 + shift))) k = some secs' ∧
      charge secs' = charge secs + shift ∧ secs'.map Prod.fst = secs.map Prod.fst
  | [], [], _, _, _, _, hd, _ => by simp at hd
  | [], _ :: _, _, _, _, _, _, h => by simp [sections] at h
  | _ :: _, [], _, _, _, _, _, h => by simp [sections] at h
  | d0 :: ds, b :: bs, secs, shift, dim, d, hd, h => by
    obtain ⟨s, r, h1, h2, rfl⟩ := sections_cons.mp h
    cases dim with
    | zero =>
      simp at hd; subst hd
      refine ⟨(s.1, s.2 + shift) :: r, sections_cons.mpr ⟨_, _, by rw [List.getElem?_map, h1]; rfl, h2, rfl⟩, ?_, ?_⟩
      · simp only [charge, List.map_cons, List.sum_cons]; abel
      · simp
    | succ dim =>
      obtain ⟨secs', g1, g2, g3⟩ := sections_shift shift dim d (by simpa using hd) h2
      refine ⟨s :: secs', sections_cons.mpr ⟨_, _, h1, g1, rfl⟩, ?_, ?_⟩
      · simp only [charge, List.map_cons, List.sum_cons] at g2 ⊢; rw [g2]; abel
      · simp [g3]

theorem locateAll_shift : ∀ {shape : Shape G} (e : List Nat) (shift : G) (dim : Nat) (d : Dim G), shape[dim]? = some d →
    locateAll (shape.set dim (d.map fun s => (s.1, s.2 + shift))) e = locateAll shape e
  | [], _, _, _, _, hd => by simp at hd
  | _ :: _, [], _, 0, _, _ => by simp [locateAll]
  | _ :: _, [], _, _ + 1, _, _ => by simp [locateAll]
  | d0 :: ds, e :: es, shift, 0, d, hd => by
    simp at hd; subst hd
    simp only [List.set_cons_zero, locateAll, locate_mapCharge (fun s : Nat × G => (s.1, s.2 + shift)) (fun _ => rfl)]
  | d0 :: ds, e :: es, shift, dim + 1, d, hd => by
    simp only [List.set_cons_succ, locateAll, locateAll_shift es shift dim d (by simpa using hd)]

/-- `cval_shift` keeps every entry, but the result is conserving only if no block is stored or the shift is
its own inverse: the rule is moved the wrong way. -/
theorem C28_shift_exact_partial [Zero R] (t : BT G R) (hc : Conserving t.shape t.rule t.blocks) (shift : G) (dim : Nat)
    (hd : dim < t.shape.length) :
    ∃ t', cvalShift t shift dim = .ok t' ∧ (∀ e, entry t'.shape t'.blocks e = entry t.shape t.blocks e) ∧
      (Conserving t'.shape t'.rule t'.blocks ↔ t.blocks = [] ∨ shift + shift = 0) := by
  have hd' := List.getElem?_eq_getElem hd
  refine ⟨⟨t.shape.set dim (t.shape[dim].map fun s => (s.1, s.2 + shift)), t.rule + -shift, t.blocks⟩, ?_, ?_, ?_⟩
  · simp only [cvalShift, shiftImpl, hd', bind, Except.bind]
  · intro e
    simp only [entry, locateAll_shift e shift dim _ hd']
  · constructor
    · intro h
      rcases hb : t.blocks with _ | ⟨⟨k, b⟩, rest⟩
      · exact .inl rfl
      · right
        have hm : (k, b) ∈ t.blocks := by rw [hb]; simp
        obtain ⟨secs, h1, h2, _⟩ := hc.block k b hm
        obtain ⟨secs', g1, g2, g3⟩ := sections_shift shift dim _ hd' h1
        obtain ⟨secs'', x1, x2, _⟩ := h.block k b hm
        rw [g1] at x1; cases x1
        rw [g2, h2] at x2
        have : shift = -shift := add_left_cancel x2
        rw [add_eq_zero_iff_eq_neg]; exact this
    · rintro (h | h)
      · exact ⟨hc.sorted, by intro k b hk; simp only [h] at hk; simp at hk⟩
      · refine ⟨hc.sorted, ?_⟩
        intro k b hk
        obtain ⟨secs, h1, h2, h3⟩ := hc.block k b hk
        obtain ⟨secs', g1, g2, g3⟩ := sections_shift shift dim _ hd' h1
        refine ⟨secs', g1, ?_, by rw [g3, h3]⟩
        show charge secs' = t.rule + -shift
        rw [g2, h2]; exact congrArg _ (add_eq_zero_iff_eq_neg.mp h)

/-- A dimension that does not exist is rejected. -/
theorem C28_shift_range (t : BT G R) (shift : G) (dim : Nat) (hd : t.shape.length ≤ dim) :
    cvalShift t shift dim = Res.throw .invalidArgument := by
  simp only [cvalShift, shiftImpl, List.getElem?_eq_none hd, bind, Except.bind, Res.throw]

/-- With integer charges, shifting a stored tensor by anything but zero breaks conservation. -/
theorem C28_shift_fails (t : BT ℤ R) [Zero R] (hc : Conserving t.shape t.rule t.blocks) (hne : t.blocks ≠ [])
    (shift : ℤ) (hs : shift ≠ 0) (dim : Nat) (hd : dim < t.shape.length) :
    ∃ t', cvalShift t shift dim = .ok t' ∧ ¬ Conserving t'.shape t'.rule t'.blocks := by
  obtain ⟨t', h1, _, h3⟩ := C28_shift_exact_partial t hc shift dim hd
  refine ⟨t', h1, fun h => ?_⟩
  rcases h3.mp h with h | h
  · exact hne h
  · omega

/-- The four operations that change charges or rule regardless of the blocks throw `logic_error` on a tensor
that stores a block, and on an empty tensor do what they say. -/
theorem C29_refused (t : BT G R) (g : G) (dim : Nat) :
    (t.blocks ≠ [] → setRule t g = Res.throw .logicError ∧ shiftRule t g = Res.throw .logicError ∧
      neutralShape t = Res.throw .logicError ∧ nonConservingCvalShift t g dim = Res.throw .logicError) ∧
    (t.blocks = [] →
      setRule t g = .ok ⟨t.shape, g, []⟩ ∧ shiftRule t g = .ok ⟨t.shape, t.rule + g, []⟩ ∧
      (∃ sh, neutralShape t = .ok ⟨sh, 0, []⟩ ∧ List.Forall₂ (List.Forall₂ fun s s' => s'.1 = s.1 ∧ s'.2 = 0) t.shape sh) ∧
      (∀ d, t.shape[dim]? = some d → ∃ sh, nonConservingCvalShift t g dim = .ok ⟨sh, t.rule, []⟩ ∧
        sh[dim]? = some (d.map fun s => (s.1, s.2 + g)) ∧ ∀ j, j ≠ dim → sh[j]? = t.shape[j]?)) := by
  constructor
  · intro h
    have : t.blocks.length ≠ 0 := by simpa using h
    simp [setRule, shiftRule, neutralShape, nonConservingCvalShift, this]
  · intro h
    obtain ⟨sh, rule, bl⟩ := t
    simp only at h
    subst h
    refine ⟨rfl, rfl, ⟨_, rfl, ?_⟩, ?_⟩
    · rw [List.forall₂_map_right_iff, List.forall₂_same]
      intro d _
      rw [List.forall₂_map_right_iff, List.forall₂_same]
      simp
    · intro d hd
      refine ⟨sh.set dim (d.map fun s => (s.1, s.2 + g)), ?_, ?_, ?_⟩
      · simp only [nonConservingCvalShift, shiftImpl, hd, bind, Except.bind]; rfl
      · have := (List.getElem?_eq_some_iff.mp hd).1
        simp [this]
      · intro j hj
        rw [List.getElem?_set_ne (Ne.symm hj)]

example : ex18.blocks ≠ [] := by simp [ex18]
example : (sparseZeros ex18.shape 0 : BT ℤ ℤ).blocks = [] := rfl

end charges

/-! ### C34, C60, C63 -/

/-- Some element of some stored block is true. -/
def HasTrue (bl : FM (List Nat) (Blk Bool)) : Prop := ∃ k b o, (k, b) ∈ bl ∧ InRange o b.dims ∧ b.f o = true

theorem blkAny_iff (b : Blk Bool) : blkAny b = true ↔ ∃ o, InRange o b.dims ∧ b.f o = true := by
  simp [blkAny, mem_allIdx]

theorem anyLoop_eq (bl : FM (List Nat) (Blk Bool)) (out : Bool) : anyLoop bl out = out := by
  induction bl generalizing out with
  | nil => rfl
  | cons kb bl ih => cases out <;> simp [anyLoop, ih]

/-- `any()` looks at the first stored block only; it is right when that block has a true element or no
later block does. -/
theorem C34_any_partial (t : BT G Bool) (k : List Nat) (b : Blk Bool) (rest) (h : t.blocks = (k, b) :: rest) :
    (any t = some true ↔ ∃ o, InRange o b.dims ∧ b.f o = true) ∧
    ((HasTrue rest → ∃ o, InRange o b.dims ∧ b.f o = true) → (any t = some true ↔ HasTrue t.blocks)) := by
  have h1 : any t = some true ↔ ∃ o, InRange o b.dims ∧ b.f o = true := by
    simp only [any, h, anyLoop_eq, Option.some.injEq, blkAny_iff]
  refine ⟨h1, ?_⟩
  intro hr
  rw [h1, h]
  constructor
  · rintro ⟨o, ho⟩; exact ⟨k, b, o, by simp, ho⟩
  · rintro ⟨k', b', o, hm, ho⟩
    rcases List.mem_cons.mp hm with he | hm
    · cases he; exact ⟨o, ho⟩
    · exact hr ⟨k', b', o, hm, ho⟩

example : (∃ o, InRange o [2] ∧ (fun o => decide (o = [1])) o = true) :=
  ⟨[1], .cons (by decide) .nil, by decide⟩

/-- A true element in the second block is missed, and a tensor without blocks gives an undefined result. -/
theorem C34_any_fails : (∃ t : BT ℤ Bool, Conserving t.shape t.rule t.blocks ∧ HasTrue t.blocks ∧ any t = some false) ∧
    ∀ t : BT G Bool, t.blocks = [] → any t = none := by
  refine ⟨⟨⟨[[(1, 0), (1, 0)]], 0, [([0], ⟨[1], fun _ => false⟩), ([1], ⟨[1], fun _ => true⟩)]⟩, ⟨?_, ?_⟩, ?_, rfl⟩, ?_⟩
  · unfold Sorted; decide
  · intro k b h
    simp only [List.mem_cons, List.not_mem_nil, or_false, Prod.mk.injEq] at h
    rcases h with ⟨rfl, rfl⟩ | ⟨rfl, rfl⟩
    · exact ⟨[(1, 0)], rfl, rfl, rfl⟩
    · exact ⟨[(1, 0)], rfl, rfl, rfl⟩
  · exact ⟨[1], ⟨[1], fun _ => true⟩, [0], by simp, .cons (by decide) .nil, rfl⟩
  · intro t h; simp [any, h]

/-- `anynan()` is true exactly when some element of some stored block is NaN. -/
theorem C63_anynan (isnan : R → Bool) (t : BT G R) :
    anynan isnan t = true ↔ ∃ k b o, (k, b) ∈ t.blocks ∧ InRange o b.dims ∧ isnan (b.f o) = true := by
  have : ∀ (bl : FM (List Nat) (Blk R)) (out : Bool), anynan.go isnan bl out = true ↔
      out = true ∨ ∃ k b o, (k, b) ∈ bl ∧ InRange o b.dims ∧ isnan (b.f o) = true := by
    intro bl
    induction bl with
    | nil => intro out; simp [anynan.go]
    | cons kb bl ih =>
      intro out
      simp only [anynan.go]
      by_cases h : (out || (allIdx kb.2.dims).any (fun o => isnan (kb.2.f o))) = true
      · rw [if_pos h, h]
        simp only [true_iff]
        rcases Bool.or_eq_true _ _ |>.mp h with h | h
        · exact .inl h
        · right
          obtain ⟨o, ho, hn⟩ := List.any_eq_true.mp h
          exact ⟨kb.1, kb.2, o, by simp, mem_allIdx.mp ho, hn⟩
      · rw [if_neg h, ih]
        simp only [Bool.not_eq_true] at h
        obtain ⟨h1, h2⟩ := Bool.or_eq_false_iff.mp h
        rw [h]
        constructor
        · rintro (h | ⟨k, b, o, hm, ho⟩)
          · cases h
          · exact .inr ⟨k, b, o, by simp [hm], ho⟩
        · rintro (h' | ⟨k, b, o, hm, ho, hn⟩)
          · rw [h1] at h'; cases h'
          · rcases List.mem_cons.mp hm with he | hm
            · subst he
              have := List.any_eq_false.mp h2 o (mem_allIdx.mpr ho)
              exact absurd hn this
            · exact .inr ⟨k, b, o, hm, ho, hn⟩
  rw [anynan, this]; simp

example : anynan (fun x : ℤ => decide (x = 6)) ex18 = true := by decide

/-- `item()`: zero without blocks, the value of a single one-element block, `logic_error` with two or more
blocks. -/
theorem C60_item [Zero R] (t : BT G R) :
    (t.blocks = [] → item t = .ok 0) ∧
    (∀ k b, t.blocks = [(k, b)] → (∀ n ∈ b.dims, n = 1) → ∃ o, InRange o b.dims ∧ item t = .ok (b.f o)) ∧
    (2 ≤ t.blocks.length → item t = Res.throw .logicError) := by
  refine ⟨?_, ?_, ?_⟩
  · intro h; simp [item, h]
  · intro k b h hd
    have hr : InRange (List.replicate b.dims.length 0) b.dims ∧ b.dims.prod = 1 := by
      generalize b.dims = l at hd
      induction l with
      | nil => exact ⟨.nil, rfl⟩
      | cons n l ih =>
        have hn := hd n (by simp)
        obtain ⟨h1, h2⟩ := ih fun m hm => hd m (by simp [hm])
        subst hn
        exact ⟨.cons (by decide) h1, by simp [h2]⟩
    exact ⟨_, hr.1, by simp [item, h, itemBlk, hr.2]⟩
  · intro h
    simp only [item]
    rcases hb : t.blocks with _ | ⟨a, _ | ⟨b, l⟩⟩
    · rw [hb] at h; simp at h
    · rw [hb] at h; simp at h
    · rfl

example : ∀ n ∈ (⟨[1, 1], fun _ => 3⟩ : Blk ℤ).dims, n = 1 := by decide

end QuantiT.BT
