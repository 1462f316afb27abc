import Verif.Lemmas.Gather
/-
`permute` on conserving tensors.
-/
set_option linter.unusedSectionVars false
namespace QuantiT.BT
open QuantiT.Spec
variable {G R : Type}

theorem mapM_ok {α β : Type} {f : α → Res β} {g : α → β} : ∀ {l : List α}, (∀ x ∈ l, f x = .ok (g x)) →
    l.mapM f = .ok (l.map g)
  | [], _ => rfl
  | x :: l, h => by
    rw [List.mapM_cons, h x (by simp), mapM_ok (l := l) fun y hy => h y (by simp [hy])]
    rfl

theorem checkIndex_eq : ∀ {shape : Shape G} {k : List Nat} {secs}, sections shape k = some secs →
    checkIndex shape k = .ok (true, secs)
  | [], [], secs, h => by simp [sections] at h; subst h; rfl
  | [], _ :: _, _, h => by simp [sections] at h
  | _ :: _, [], _, h => by simp [sections] at h
  | d :: ds, b :: bs, secs, h => by
    obtain ⟨s, r, h1, h2, rfl⟩ := sections_cons.mp h
    have hb := (List.getElem?_eq_some_iff.mp h1).1
    have : ((d :: ds).flatten)[b]? = some s := by
      rw [List.flatten_cons, List.getElem?_append_left hb, h1]
    simp only [checkIndex, this, checkIndex_eq h2]
    simp [bind, Except.bind, hb]

section
variable [AddCommMonoid G] [DecidableEq G]

theorem mkChecked_ok {shape : Shape G} {rule : G} {bl : FM (List Nat) (Blk R)}
    (h : ∀ k b, (k, b) ∈ bl → ∃ secs, sections shape k = some secs ∧ charge secs = rule ∧ b.dims = secs.map Prod.fst) :
    mkChecked shape rule bl = .ok ⟨shape, rule, bl⟩ := by
  have : bl.mapM (checkBlock shape rule) = .ok (bl.map fun _ => true) := by
    refine mapM_ok ?_
    rintro ⟨k, b⟩ hk
    obtain ⟨secs, h1, h2, h3⟩ := h k b hk
    obtain ⟨l1, l2⟩ := sections_length h1
    have hc : (secs.map Prod.snd).foldl (· + ·) 0 = rule := by rw [foldl_add_zero]; exact h2
    simp only [checkBlock, checkIndex_eq h1, bind, Except.bind]
    rw [if_neg (by simp [h3, l2]), if_neg (by simp [l1])]
    simp [hc, h3]
  simp only [mkChecked, this, bind, Except.bind]
  rw [if_pos (by simp)]

/-- The converse: what the checking constructor accepts is conserving, apart from the order of the keys. -/
theorem checkIndex_true : ∀ {shape : Shape G} {k : List Nat} {secs}, checkIndex shape k = .ok (true, secs) →
    sections shape k = some secs
  | [], [], secs, h => by simp [checkIndex] at h; subst h; rfl
  | [], _ :: _, _, h => by simp [checkIndex, Res.ub] at h
  | _ :: _, [], _, h => by simp [checkIndex] at h
  | d :: ds, b :: bs, secs, h => by
    simp only [checkIndex] at h
    split at h
    · simp [Res.ub] at h
    · rename_i s hs
      rcases hr : checkIndex ds bs with e | ⟨f, r⟩
      · rw [hr] at h; simp [bind, Except.bind] at h
      · rw [hr] at h
        simp only [bind, Except.bind, Except.ok.injEq, Prod.mk.injEq, Bool.and_eq_true, decide_eq_true_eq] at h
        obtain ⟨⟨hb, rfl⟩, rfl⟩ := h
        rw [List.flatten_cons, List.getElem?_append_left hb] at hs
        exact sections_cons.mpr ⟨s, r, hs, checkIndex_true hr, rfl⟩

theorem mapM_ok_mem {α β : Type} {f : α → Res β} : ∀ {l : List α} {r}, l.mapM f = .ok r →
    (∀ x ∈ l, ∃ y ∈ r, f x = .ok y)
  | [], _, _ => by simp
  | x :: l, r, h => by
    rw [List.mapM_cons] at h
    rcases hx : f x with e | y
    · rw [hx] at h; simp [bind, Except.bind] at h
    · rcases hl : l.mapM f with e | ys
      · rw [hx, hl] at h; simp [bind, Except.bind] at h
      · rw [hx, hl] at h
        simp only [bind, Except.bind, pure, Except.pure, Except.ok.injEq] at h
        subst h
        intro z hz
        rcases List.mem_cons.mp hz with rfl | hz
        · exact ⟨y, by simp, hx⟩
        · obtain ⟨w, hw, hw2⟩ := mapM_ok_mem hl z hz
          exact ⟨w, by simp [hw], hw2⟩

theorem mkChecked_inv {shape : Shape G} {rule : G} {bl : FM (List Nat) (Blk R)} {t}
    (h : mkChecked shape rule bl = .ok t) :
    t = ⟨shape, rule, bl⟩ ∧
    ∀ k b, (k, b) ∈ bl → ∃ secs, sections shape k = some secs ∧ charge secs = rule ∧ b.dims = secs.map Prod.fst := by
  simp only [mkChecked] at h
  rcases hm : bl.mapM (checkBlock shape rule) with e | oks
  · rw [hm] at h; simp [bind, Except.bind] at h
  · rw [hm] at h
    simp only [bind, Except.bind] at h
    split at h
    · rename_i hall
      refine ⟨by simpa using h.symm, ?_⟩
      intro k b hk
      obtain ⟨y, hy, hy2⟩ := mapM_ok_mem hm _ hk
      have hyt : y = true := by simpa using List.all_eq_true.mp hall y hy
      subst hyt
      simp only [checkBlock] at hy2
      rcases hi : checkIndex shape k with e | ⟨f, secs⟩
      · rw [hi] at hy2; simp [bind, Except.bind] at hy2
      · rw [hi] at hy2
        simp only [bind, Except.bind] at hy2
        split at hy2
        · simp at hy2
        · split at hy2
          · simp [Res.ub] at hy2
          · simp only [Except.ok.injEq, Bool.and_eq_true, decide_eq_true_eq, foldl_add_zero] at hy2
            obtain ⟨⟨rfl, h2⟩, h3⟩ := hy2
            exact ⟨secs, checkIndex_true hi, h2, h3⟩
    · simp [Res.throw] at h
end

/-- `inp` spells the dimensions `p` of a tensor of the given rank, each possibly as a negative number. -/
def Spells (rank : Nat) (inp : List Int) (p : List Nat) : Prop :=
  List.Forall₂ (fun x j => j < rank ∧ (x = (j : Int) ∨ x = (j : Int) - rank)) inp p

theorem normDims_eq {n : Nat} {inp : List Int} {p : List Nat} (h : Spells n inp p) (hl : p.length = n) :
    normDims n inp = .ok p := by
  have hlen : inp.length = n := by rw [h.length_eq, hl]
  simp only [normDims]
  rw [if_neg (by omega), hlen, Nat.sub_self, List.replicate_zero, List.append_nil]
  clear hlen hl
  induction h with
  | nil => rfl
  | @cons x j xs js h1 h2 ih =>
    rw [List.mapM_cons, ih]
    have : (if 0 ≤ (if x < 0 then x + (n : Int) else x) ∧ (if x < 0 then x + (n : Int) else x) < n then
        (Except.ok (if x < 0 then x + (n : Int) else x).toNat : Res Nat) else Res.ub) = .ok j := by
      obtain ⟨h3, h4 | h4⟩ := h1
      · subst h4
        have : ¬ (j : Int) < 0 := by omega
        simp only [this, if_false]
        rw [if_pos (by omega)]; rfl
      · subst h4
        have : (j : Int) - n < 0 := by omega
        simp only [this, if_true]
        rw [if_pos (by omega)]
        congr 1; omega
    simp only [this]
    rfl

/-- Permuted key and block. -/
def permKB (p : List Nat) (kb : List Nat × Blk R) : List Nat × Blk R :=
  ((gather p kb.1).getD [], ⟨(gather p kb.2.dims).getD [], fun o => kb.2.f (ungather p o)⟩)

theorem permKB_eq {p : List Nat} {kb : List Nat × Blk R} {k d} (h1 : gather p kb.1 = some k) (h2 : gather p kb.2.dims = some d) :
    permKB p kb = (k, ⟨d, fun o => kb.2.f (ungather p o)⟩) := by
  simp [permKB, h1, h2]

theorem sections_flatten_length {p : List Nat} {sh sh' : Shape G} (hp : p.Perm (List.range sh.length))
    (h : gather p sh = some sh') : sh'.flatten.length = sh.flatten.length :=
  (gather_perm hp h).flatten.length_eq

variable [AddCommMonoid G] [DecidableEq G]

/-- Facts about one block of a conserving tensor under a permutation. -/
theorem permKB_facts {sh sh' : Shape G} {rule : G} {bl : FM (List Nat) (Blk R)} (hc : Conserving sh rule bl) {p : List Nat}
    (hp : p.Perm (List.range sh.length)) (hsh : gather p sh = some sh') {k b} (hk : (k, b) ∈ bl) :
    ∃ k' d' secs', gather p k = some k' ∧ gather p b.dims = some d' ∧ sections sh' k' = some secs' ∧
      charge secs' = rule ∧ d' = secs'.map Prod.fst ∧ k.length = sh.length ∧ b.dims.length = sh.length := by
  obtain ⟨secs, h1, h2, h3⟩ := hc.block k b hk
  obtain ⟨l1, l2⟩ := sections_length h1
  have hlt := perm_range_lt hp
  obtain ⟨k', hk'⟩ := gather_isSome (l := k) (p := p) (by rw [l1]; exact hlt)
  obtain ⟨secs', hs'⟩ := gather_isSome (l := secs) (p := p) (by rw [l2]; exact hlt)
  refine ⟨k', secs'.map Prod.fst, secs', hk', ?_, sections_gather h1 hsh hk' hs', ?_, rfl, l1, by simp [h3, l2]⟩
  · rw [h3]; exact gather_map _ hs'
  · rw [← h2]
    exact ((gather_perm (by rw [l2]; exact hp) hs').map Prod.snd).sum_eq

theorem permute_eq {t : BT G R} (hc : Conserving t.shape t.rule t.blocks) {p : List Nat} {inp : List Int} {sh'}
    (hn : normDims t.shape.length inp = .ok p) (hp : p.Perm (List.range t.shape.length))
    (hsh : gather p t.shape = some sh') :
    permute t inp = .ok ⟨sh', t.rule, sortKeys (t.blocks.map (permKB p))⟩ ∧
      Conserving sh' t.rule (sortKeys (t.blocks.map (permKB p))) := by
  have hbl : (t.blocks.mapM fun kb => do
      let k ← orUb (gather p kb.1)
      let b ← permBlk p kb.2
      (.ok (k, b) : Res _)) = .ok (t.blocks.map (permKB p)) := by
    refine mapM_ok ?_
    rintro ⟨k, b⟩ hk
    obtain ⟨k', d', secs', h1, h2, h3, h4, h5, h6, h7⟩ := permKB_facts hc hp hsh hk
    rw [permKB_eq (kb := (k, b)) h1 h2]
    simp only [h1, orUb, permBlk, h2, bind, Except.bind]
    rw [if_pos ⟨perm_range_nodup hp, by rw [perm_range_length hp, h7]⟩]
  have hblk : ∀ k b, (k, b) ∈ sortKeys (t.blocks.map (permKB p)) →
      ∃ secs, sections sh' k = some secs ∧ charge secs = t.rule ∧ b.dims = secs.map Prod.fst := by
    intro k b hk
    rw [(sortKeys_perm _).mem_iff, List.mem_map] at hk
    obtain ⟨⟨k0, b0⟩, hm, he⟩ := hk
    obtain ⟨k', d', secs', h1, h2, h3, h4, h5, h6, h7⟩ := permKB_facts hc hp hsh hm
    rw [permKB_eq (kb := (k0, b0)) h1 h2] at he
    cases he
    exact ⟨secs', h3, h4, h5⟩
  have hnd : ((t.blocks.map (permKB p)).map Prod.fst).Nodup := by
    rw [List.map_map, List.Nodup, List.pairwise_map]
    refine List.Pairwise.imp_of_mem ?_ hc.sorted
    rintro ⟨k1, b1⟩ ⟨k2, b2⟩ hm1 hm2 hlt
    obtain ⟨k1', d1', _, h1, h2, _, _, _, h6, h7⟩ := permKB_facts hc hp hsh hm1
    obtain ⟨k2', d2', _, g1, g2, _, _, _, g6, g7⟩ := permKB_facts hc hp hsh hm2
    simp only [Function.comp, permKB_eq (kb := (k1, b1)) h1 h2, permKB_eq (kb := (k2, b2)) g1 g2]
    rintro rfl
    exact absurd (gather_inj (by rw [h6]; exact hp) (by rw [g6]; exact hp) h1 g1) (ne_of_lt hlt)
  refine ⟨?_, ⟨sortKeys_sorted hnd, hblk⟩⟩
  have hfl := sections_flatten_length hp hsh
  simp only [permute, hn, bind, Except.bind, hsh, orUb] at hbl ⊢
  rw [hbl]
  simp only [hfl, lt_irrefl, if_false]
  exact mkChecked_ok hblk

theorem permute_lookup {t : BT G R} (hc : Conserving t.shape t.rule t.blocks) {p : List Nat} {sh'}
    (hp : p.Perm (List.range t.shape.length)) (hsh : gather p t.shape = some sh')
    (hc' : Conserving sh' t.rule (sortKeys (t.blocks.map (permKB p)))) {k k' : List Nat} (hk : gather p k = some k')
    (hl : k.length = t.shape.length) :
    lookup (sortKeys (t.blocks.map (permKB p))) k' = (lookup t.blocks k).map (fun b => (permKB p (k, b)).2) := by
  rcases h : lookup t.blocks k with _ | b
  · rw [Option.map_none, lookup_eq_none]
    rintro ⟨k1', b1'⟩ hm
    rw [(sortKeys_perm _).mem_iff, List.mem_map] at hm
    obtain ⟨⟨k1, b1⟩, hm1, he⟩ := hm
    obtain ⟨k1'', d1', _, h1, h2, _, _, _, h6, h7⟩ := permKB_facts hc hp hsh hm1
    rw [permKB_eq (kb := (k1, b1)) h1 h2] at he
    cases he
    rintro rfl
    have := gather_inj (by rw [h6]; exact hp) (by rw [hl]; exact hp) h1 hk
    subst this
    rw [lookup_of_mem hc.sorted hm1] at h
    cases h
  · rw [Option.map_some, lookup_iff_mem hc'.sorted, (sortKeys_perm _).mem_iff, List.mem_map]
    refine ⟨(k, b), mem_of_lookup h, ?_⟩
    simp [permKB, hk]

end QuantiT.BT
