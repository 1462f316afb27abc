import Verif.Lemmas.Tensordot
import Verif.Lemmas.Permute
/-
What `tensordot` computes, in terms of dense entries.
-/
set_option linter.unusedSectionVars false
namespace QuantiT.BT
open QuantiT.Spec
variable {G R : Type}

theorem indices_eq (dims : List Nat) : indices dims = allIdx dims := by
  induction dims with
  | nil => rfl
  | cons n ns ih => simp [indices, allIdx, ih]

theorem outer_eq (dims : List Nat) (n : Nat) : outer dims n = others dims n := rfl

theorem outer_perm {d : List Nat} {n : Nat} (hd : d.Nodup) (hlt : ∀ j ∈ d, j < n) :
    (outer d n ++ d).Perm (List.range n) := by
  refine (List.perm_ext_iff_of_nodup ?_ List.nodup_range).mpr ?_
  · rw [List.nodup_append]
    refine ⟨List.Nodup.filter _ List.nodup_range, hd, ?_⟩
    intro a ha b hb hab
    subst hab
    have := (List.mem_filter.mp ha).2
    simp [hb] at this
  · intro j
    rw [List.mem_append, outer, List.mem_filter, List.mem_range]
    by_cases hj : j ∈ d
    · simp [hj, hlt j hj]
    · simp [hj]

theorem gather_append {α : Type} {p q : List Nat} {l x y : List α} (h1 : gather p l = some x) (h2 : gather q l = some y) :
    gather (p ++ q) l = some (x ++ y) := by
  rw [gather_iff] at *
  exact List.rel_append h1 h2

theorem gather_append_inv {α : Type} {p q : List Nat} {l r : List α} (h : gather (p ++ q) l = some r) :
    ∃ x y, gather p l = some x ∧ gather q l = some y ∧ r = x ++ y := by
  induction p generalizing r with
  | nil => exact ⟨[], r, rfl, h, rfl⟩
  | cons j p ih =>
    rw [List.cons_append, gather_cons] at h
    obtain ⟨x, r', hx, hr', rfl⟩ := h
    obtain ⟨x', y', h1, h2, rfl⟩ := ih hr'
    exact ⟨x :: x', y', gather_cons.mpr ⟨x, x', hx, h1, rfl⟩, h2, rfl⟩

theorem gather_lt {α : Type} {p : List Nat} {l l' : List α} (h : gather p l = some l') : ∀ j ∈ p, j < l.length := by
  intro j hj
  obtain ⟨i, hi, rfl⟩ := List.getElem_of_mem hj
  have := gather_iff.mp h
  have := (List.forall₂_iff_get.mp this).2 i hi (by rw [gather_length h]; exact hi)
  exact (List.getElem?_eq_some_iff.mp this).1

theorem others_length_lt {d : List Nat} {n j : Nat} (hj : j ∉ d) (hn : j < n) : (others d j).length < (others d n).length ∧
    (others d n)[(others d j).length]? = some j := by
  obtain ⟨m, rfl⟩ : ∃ m, n = j + (m + 1) := ⟨n - j - 1, by omega⟩
  have : others d (j + (m + 1)) = others d j ++ j :: ((List.range m).map (fun x => j + (x + 1))).filter (fun j => decide (j ∉ d)) := by
    simp only [others, List.range_add, List.filter_append, List.range_succ_eq_map, List.map_cons, List.map_map]
    congr 1
    simp [List.filter_cons, hj, Function.comp_def]
  rw [this]
  simp

theorem place_gather {d : List Nat} (hd : d.Nodup) {x c : List Nat} (hl : c.length = d.length)
    (hlt : ∀ j ∈ d, j < x.length + c.length) (hx : x.length = (others d (x.length + c.length)).length) :
    gather d (place d x c) = some c ∧ gather (others d (x.length + c.length)) (place d x c) = some x := by
  constructor
  · rw [gather_iff, List.forall₂_iff_get]
    refine ⟨hl.symm, ?_⟩
    intro i h1 h2
    have hj := hlt d[i] (List.getElem_mem h1)
    simp only [List.get_eq_getElem, place]
    rw [List.getElem?_map, List.getElem?_range hj]
    simp [hd.idxOf_getElem i h1, List.getD_eq_getElem?_getD, h2]
  · rw [gather_iff, List.forall₂_iff_get]
    refine ⟨hx.symm, ?_⟩
    intro i h1 h2
    generalize hn : x.length + c.length = n at *
    have hmem := List.getElem_mem h1
    obtain ⟨m1, m2⟩ := List.mem_filter.mp hmem
    have hjn := List.mem_range.mp m1
    have hjd : (others d n)[i] ∉ d := by simpa using m2
    simp only [List.get_eq_getElem, place, hn]
    rw [List.getElem?_map, List.getElem?_range hjn]
    simp only [Option.map_some, if_neg hjd]
    obtain ⟨q1, q2⟩ := others_length_lt hjd hjn
    have hnd : (others d n).Nodup := List.Nodup.filter _ List.nodup_range
    have hi : (others d (others d n)[i]).length = i := by
      have e := List.getElem?_eq_some_iff.mp q2
      exact (hnd.getElem_inj_iff).mp e.2
    rw [hi]
    simp [List.getD_eq_getElem?_getD, h2]

theorem locateAll_append {s1 s2 : Shape G} {e1 e2 b1 o1 b2 o2 : List Nat} (h1 : locateAll s1 e1 = some (b1, o1))
    (h2 : locateAll s2 e2 = some (b2, o2)) : locateAll (s1 ++ s2) (e1 ++ e2) = some (b1 ++ b2, o1 ++ o2) := by
  induction s1 generalizing e1 b1 o1 with
  | nil =>
    cases e1 <;> simp [locateAll] at h1
    obtain ⟨rfl, rfl⟩ := h1
    simpa using h2
  | cons d s1 ih =>
    cases e1 with
    | nil => simp [locateAll] at h1
    | cons e e1 =>
      obtain ⟨b, o, bs, os, h3, h4, h5⟩ := locateAll_cons.mp h1
      cases h5
      exact locateAll_cons.mpr ⟨b, o, _, _, h3, ih h4, rfl⟩

theorem sections_append {s1 s2 : Shape G} {b1 b2 : List Nat} {r1 r2} (h1 : sections s1 b1 = some r1)
    (h2 : sections s2 b2 = some r2) : sections (s1 ++ s2) (b1 ++ b2) = some (r1 ++ r2) := by
  induction s1 generalizing b1 r1 with
  | nil => cases b1 <;> simp [sections] at h1; subst h1; simpa using h2
  | cons d s1 ih =>
    cases b1 with
    | nil => simp [sections] at h1
    | cons b b1 =>
      obtain ⟨s, r, g1, g2, rfl⟩ := sections_cons.mp h1
      exact sections_cons.mpr ⟨s, r ++ r2, g1, ih g2, rfl⟩

theorem sections_append_inv {s1 s2 : Shape G} {b : List Nat} {r} (h : sections (s1 ++ s2) b = some r) :
    ∃ b1 b2 r1 r2, b = b1 ++ b2 ∧ r = r1 ++ r2 ∧ sections s1 b1 = some r1 ∧ sections s2 b2 = some r2 := by
  induction s1 generalizing b r with
  | nil => exact ⟨[], b, [], r, rfl, rfl, rfl, h⟩
  | cons d s1 ih =>
    cases b with
    | nil => simp [sections] at h
    | cons x b =>
      obtain ⟨s, r', g1, g2, rfl⟩ := sections_cons.mp h
      obtain ⟨b1, b2, r1, r2, rfl, rfl, q1, q2⟩ := ih g2
      exact ⟨x :: b1, b2, s :: r1, r2, rfl, rfl, sections_cons.mpr ⟨s, r1, g1, q1, rfl⟩, q2⟩

theorem charge_append [AddCommMonoid G] (a b : List (Nat × G)) : charge (a ++ b) = charge a + charge b := by
  simp [charge]

theorem locateAll_offset {shape : Shape G} {e b o : List Nat} {secs} (h : locateAll shape e = some (b, o))
    (hs : sections shape b = some secs) : InRange o (secs.map Prod.fst) := by
  obtain ⟨secs', h1, h2⟩ := locateAll_sections h
  rw [hs] at h1; cases h1; exact h2

/-! ### Operands -/

/-- The matrix made of a block by `permute_bl`. -/
def opMat (pt : List Nat) (split : Nat) (b : Blk R) : Blk R :=
  let d := (gather pt b.dims).getD []
  ⟨[(d.take split).prod, (d.drop split).prod],
    fun o => b.f (ungather pt (unflat d (flat [(d.take split).prod, (d.drop split).prod] o)))⟩

/-- The list of matrices made of a tensor. -/
def opList (bl : FM (List Nat) (Blk R)) (pk pt : List Nat) (split : Nat) : FM (List Nat) (Blk R) :=
  sortKeys (bl.map fun kb => ((gather pk kb.1).getD [], opMat pt split kb.2))

section operand
variable [AddCommMonoid G] [DecidableEq G]

theorem permuteBl_eq {sh : Shape G} {rule : G} {bl : FM (List Nat) (Blk R)} (hc : Conserving sh rule bl) {pk pt : List Nat}
    (hpk : pk.Perm (List.range sh.length)) (hpt : pt.Perm (List.range sh.length)) (split : Nat) :
    permuteBl bl pk pt split = .ok (opList bl pk pt split) := by
  have : bl.mapM (matBlk pk pt split) = .ok (bl.map fun kb => ((gather pk kb.1).getD [], opMat pt split kb.2)) := by
    refine mapM_ok ?_
    rintro ⟨k, b⟩ hk
    obtain ⟨secs, h1, h2, h3⟩ := hc.block k b hk
    obtain ⟨l1, l2⟩ := sections_length h1
    obtain ⟨k', hk'⟩ := gather_isSome (l := k) (p := pk) (by rw [l1]; exact perm_range_lt hpk)
    have hdl : b.dims.length = sh.length := by rw [h3, List.length_map, l2]
    obtain ⟨d', hd'⟩ := gather_isSome (l := b.dims) (p := pt) (by rw [hdl]; exact perm_range_lt hpt)
    have hpb : permBlk pt b = .ok ⟨d', fun o => b.f (ungather pt o)⟩ := by
      simp only [permBlk, hd']
      rw [if_pos ⟨perm_range_nodup hpt, by rw [hdl]; exact perm_range_length hpt⟩]
    have hprod : [(d'.take split).prod, (d'.drop split).prod].prod = d'.prod := by
      rw [List.prod_cons, List.prod_singleton, ← List.prod_append, List.take_append_drop]
    simp only [matBlk, hk', orUb, hpb, reshapeBlk, hprod, opMat, hd', bind, Except.bind, Option.getD_some, if_true]
  simp only [permuteBl, this, bind, Except.bind]
  rfl

theorem lookup_sortKeys_map {l : FM (List Nat) (Blk R)} (hs : Sorted l) (g : List Nat → List Nat) (h : Blk R → Blk R) {k : List Nat}
    (hinj : ∀ x ∈ l, ∀ y ∈ l, g x.1 = g y.1 → x.1 = y.1) (hk : ∀ x ∈ l, g x.1 = g k → x.1 = k) :
    Sorted (sortKeys (l.map fun kb => (g kb.1, h kb.2))) ∧
    lookup (sortKeys (l.map fun kb => (g kb.1, h kb.2))) (g k) = (lookup l k).map h := by
  have hsorted : Sorted (sortKeys (l.map fun kb => (g kb.1, h kb.2))) := by
    apply sortKeys_sorted
    rw [List.map_map]
    have hnd := nodup_of_sorted hs
    have : (l.map (Prod.fst ∘ fun kb : KB R => (g kb.1, h kb.2))) = (l.map Prod.fst).map g := by rw [List.map_map]; rfl
    rw [this]
    refine List.Nodup.map_on ?_ hnd
    intro x hx y hy hxy
    obtain ⟨x', hx', rfl⟩ := List.mem_map.mp hx
    obtain ⟨y', hy', rfl⟩ := List.mem_map.mp hy
    exact hinj x' hx' y' hy' hxy
  refine ⟨hsorted, ?_⟩
  rcases hl : lookup l k with _ | b
  · rw [Option.map_none, lookup_eq_none]
    intro x hx hxe
    rw [(sortKeys_perm _).mem_iff, List.mem_map] at hx
    obtain ⟨y, hy, rfl⟩ := hx
    have := hk y hy hxe
    rw [lookup_eq_none] at hl
    exact hl y hy this
  · rw [Option.map_some, lookup_iff_mem hsorted, (sortKeys_perm _).mem_iff, List.mem_map]
    exact ⟨(k, b), mem_of_lookup hl, rfl⟩

/-- What the loops need to know about one operand: `S` the outer and `C` the contracted dimensions, `swap` says
whether the matrices have the contracted dimensions first. -/
structure Operand [Zero R] (t : BT G R) (d : List Nat) (S C : Shape G) (swap : Bool) (T : FM (List Nat) (Blk R)) : Prop where
  sorted : Sorted T
  mem : ∀ k M, (k, M) ∈ T → ∃ x z sx sz, k = x ++ z ∧ sections S x = some sx ∧ sections C z = some sz ∧
    charge sx + charge sz = t.rule ∧
    M.dims = if swap then [(sz.map Prod.fst).prod, (sx.map Prod.fst).prod] else [(sx.map Prod.fst).prod, (sz.map Prod.fst).prod]
  entry : ∀ ex ez x ox z oz, locateAll S ex = some (x, ox) → locateAll C ez = some (z, oz) →
    entry t.shape t.blocks (place d ex ez) =
      match lookup T (x ++ z) with
      | none => 0
      | some M => M.f (if swap then [flat (secSizes C z) oz, flat (secSizes S x) ox]
          else [flat (secSizes S x) ox, flat (secSizes C z) oz])

theorem operand [Zero R] {t : BT G R} (hc : Conserving t.shape t.rule t.blocks) {d : List Nat} (hd : d.Nodup) {S C : Shape G}
    (hC : gather d t.shape = some C) (hS : gather (others d t.shape.length) t.shape = some S) (swap : Bool) :
    Operand t d S C swap
      (opList t.blocks (outer d t.shape.length ++ d)
        (if swap then d ++ outer d t.shape.length else outer d t.shape.length ++ d)
        (if swap then d.length else t.shape.length - d.length)) := by
  have hlt := gather_lt hC
  generalize hn : t.shape.length = n at *
  have hpk := outer_perm hd hlt
  have hol : (outer d n).length + d.length = n := by simpa using hpk.length_eq
  generalize hpt : (if swap then d ++ outer d n else outer d n ++ d) = pt
  have hptp : pt.Perm (List.range n) := by
    subst hpt
    cases swap
    · exact hpk
    · exact (List.perm_append_comm).trans hpk
  have hSl : S.length = (outer d n).length := gather_length hS
  have hCl : C.length = d.length := gather_length hC
  -- the key map
  let g : List Nat → List Nat := fun k => (gather (outer d n ++ d) k).getD []
  have hg : ∀ k, k.length = n → gather (outer d n ++ d) k = some (g k) := by
    intro k hk
    obtain ⟨k', hk'⟩ := gather_isSome (l := k) (p := outer d n ++ d) (by rw [hk]; exact perm_range_lt hpk)
    simp only [g, hk', Option.getD_some]
  have hginj : ∀ k k', k.length = n → k'.length = n → g k = g k' → k = k' := by
    intro k k' h1 h2 h3
    exact gather_inj (by rw [h1]; exact hpk) (by rw [h2]; exact hpk) (hg k h1) (by rw [hg k' h2, h3])
  have hblk : ∀ x ∈ t.blocks, x.1.length = n := by
    rintro ⟨k, b⟩ hx
    obtain ⟨secs, h1, _⟩ := hc.block k b hx
    rw [(sections_length h1).1, hn]
  have hlook := fun k (hk : k.length = n) => lookup_sortKeys_map hc.sorted g
    (opMat pt (if swap then d.length else n - d.length)) (k := k)
    (fun x hx y hy h => hginj _ _ (hblk x hx) (hblk y hy) h) (fun x hx h => hginj _ _ (hblk x hx) hk h)
  refine ⟨(hlook (List.replicate n 0) (by simp)).1, ?_, ?_⟩
  · intro k M hk
    rw [opList, (sortKeys_perm _).mem_iff, List.mem_map] at hk
    obtain ⟨⟨k0, b0⟩, hm, he⟩ := hk
    simp only [Prod.mk.injEq] at he
    obtain ⟨rfl, rfl⟩ := he
    obtain ⟨secs, h1, h2, h3⟩ := hc.block k0 b0 hm
    obtain ⟨l1, l2⟩ := sections_length h1
    rw [hn] at l1 l2
    obtain ⟨x, hx⟩ := gather_isSome (l := k0) (p := outer d n) (fun j hj => by rw [l1]; exact perm_range_lt hpk j (by simp [hj]))
    obtain ⟨z, hz⟩ := gather_isSome (l := k0) (p := d) (fun j hj => by rw [l1]; exact hlt j hj)
    obtain ⟨sx, hsx⟩ := gather_isSome (l := secs) (p := outer d n) (fun j hj => by rw [l2]; exact perm_range_lt hpk j (by simp [hj]))
    obtain ⟨sz, hsz⟩ := gather_isSome (l := secs) (p := d) (fun j hj => by rw [l2]; exact hlt j hj)
    refine ⟨x, z, sx, sz, ?_, sections_gather h1 hS hx hsx, sections_gather h1 hC hz hsz, ?_, ?_⟩
    · rw [gather_append hx hz]; rfl
    · rw [← charge_append]
      have hpm := gather_perm (by rw [l2]; exact hpk) (gather_append hsx hsz)
      rw [charge, (hpm.map Prod.snd).sum_eq]; exact h2
    · have e1 : gather (outer d n) b0.dims = some (sx.map Prod.fst) := by rw [h3]; exact gather_map _ hsx
      have e2 : gather d b0.dims = some (sz.map Prod.fst) := by rw [h3]; exact gather_map _ hsz
      have e3 : (sx.map Prod.fst).length = (outer d n).length := gather_length e1
      have e4 : (sz.map Prod.fst).length = d.length := gather_length e2
      subst hpt
      cases swap
      · simp only [Bool.false_eq_true, if_false, opMat, gather_append e1 e2, Option.getD_some]
        have : n - d.length = (sx.map Prod.fst).length := by omega
        rw [this]; simp
      · simp only [if_true, opMat, gather_append e2 e1, Option.getD_some]
        rw [← e4]; simp
  · intro ex ez x ox z oz hlx hlz
    obtain ⟨x1, x2, x3⟩ := locateAll_length hlx
    obtain ⟨z1, z2, z3⟩ := locateAll_length hlz
    have hne : ex.length + ez.length = n := by omega
    obtain ⟨p1, p2⟩ := place_gather (x := ex) (c := ez) hd (by omega) (by rw [hne]; exact hlt) (by rw [hne, ← outer_eq]; omega)
    rw [hne] at p2
    have hpl : (place d ex ez).length = n := by simp [place, hne]
    have hgp := gather_append p2 p1
    have happ := locateAll_append hlx hlz
    -- where the full index lives
    have hrange : InRange (place d ex ez) (t.shape.map dimSize) := by
      have hr := locateAll_isSome.mp ⟨_, happ⟩
      have hgs := gather_map dimSize (gather_append hS hC)
      rw [InRange, List.forall₂_iff_get]
      refine ⟨by rw [hpl]; simp [hn], ?_⟩
      intro j h1 h2
      have hj : j ∈ outer d n ++ d := hpk.mem_iff.mpr (List.mem_range.mpr (by rw [← hpl]; exact h1))
      obtain ⟨i, hi, he⟩ := List.getElem_of_mem hj
      have hi' : (outer d n ++ d)[i]? = some j := by rw [List.getElem?_eq_getElem hi, he]
      have q1 := gather_getElem? hgp hi'
      have q2 := gather_getElem? hgs hi'
      rw [List.getElem?_eq_getElem h1] at q1
      rw [List.getElem?_eq_getElem h2] at q2
      obtain ⟨i1, e1⟩ := List.getElem?_eq_some_iff.mp q1
      obtain ⟨i2, e2⟩ := List.getElem?_eq_some_iff.mp q2
      have := (List.forall₂_iff_get.mp hr).2 i i1 i2
      simp only [List.get_eq_getElem] at this ⊢
      rw [← e1, ← e2]; exact this
    obtain ⟨⟨k, o⟩, hl⟩ := locateAll_isSome.mpr hrange
    obtain ⟨_, hkl, hol'⟩ := locateAll_length hl
    rw [hn] at hkl hol'
    obtain ⟨o', ho'⟩ := gather_isSome (l := o) (p := outer d n ++ d) (by rw [hol']; exact perm_range_lt hpk)
    have hbig := locateAll_gather hl (gather_append hS hC) hgp (hg k hkl) ho'
    rw [happ] at hbig
    simp only [Option.some.injEq, Prod.mk.injEq] at hbig
    obtain ⟨hk', ho''⟩ := hbig
    have hlk := (hlook k hkl).2
    rw [← hk'] at hlk
    have hlk' : lookup (opList t.blocks (outer d n ++ d) pt (if swap then d.length else n - d.length)) (x ++ z) =
        (lookup t.blocks k).map (opMat pt (if swap then d.length else n - d.length)) := hlk
    rw [hlk']
    simp only [entry, hl]
    rcases hb : lookup t.blocks k with _ | b
    · rfl
    · simp only [Option.map_some]
      obtain ⟨secs, h1, h2, h3⟩ := hc.block k b (mem_of_lookup hb)
      obtain ⟨l1, l2⟩ := sections_length h1
      rw [hn] at l1 l2
      obtain ⟨gx, gz, q1, q2, q3⟩ := gather_append_inv (hg k hkl)
      have hgxz := List.append_inj (hk'.trans q3) (by rw [x2, hSl, gather_length q1])
      obtain ⟨rfl, rfl⟩ := hgxz
      obtain ⟨fx, fz, r1, r2, r3⟩ := gather_append_inv ho'
      rw [r3] at ho''
      obtain ⟨rfl, rfl⟩ := List.append_inj ho'' (by rw [x3, hSl, gather_length r1])
      obtain ⟨sx, hsx⟩ := gather_isSome (l := secs) (p := outer d n) (fun j hj => by rw [l2]; exact perm_range_lt hpk j (by simp [hj]))
      obtain ⟨sz, hsz⟩ := gather_isSome (l := secs) (p := d) (fun j hj => by rw [l2]; exact hlt j hj)
      have s1 := sections_gather h1 hS q1 hsx
      have s2 := sections_gather h1 hC q2 hsz
      have e1 : gather (outer d n) b.dims = some (sx.map Prod.fst) := by rw [h3]; exact gather_map _ hsx
      have e2 : gather d b.dims = some (sz.map Prod.fst) := by rw [h3]; exact gather_map _ hsz
      have e3 : (sx.map Prod.fst).length = (outer d n).length := gather_length e1
      have e4 : (sz.map Prod.fst).length = d.length := gather_length e2
      rw [secSizes_eq s1, secSizes_eq s2]
      have rx : InRange ox (sx.map Prod.fst) := locateAll_offset hlx s1
      have rz : InRange oz (sz.map Prod.fst) := locateAll_offset hlz s2
      have hun : ∀ q, q = o → b.f o = b.f q := fun q h => by rw [h]
      subst hpt
      cases swap
      · simp only [Bool.false_eq_true, if_false, opMat, gather_append e1 e2, Option.getD_some]
        have : n - d.length = (sx.map Prod.fst).length := by omega
        rw [this, List.take_left, List.drop_left]
        apply hun
        have : flat [(sx.map Prod.fst).prod, (sz.map Prod.fst).prod] [flat (sx.map Prod.fst) ox, flat (sz.map Prod.fst) oz] =
          flat (sx.map Prod.fst) ox * (sz.map Prod.fst).prod + flat (sz.map Prod.fst) oz := by simp [flat]
        rw [this, unflat_append_flat rx rz]
        exact ungather_gather (by rw [hol']; exact hpk) (gather_append r1 r2)
      · simp only [if_true, opMat, gather_append e2 e1, Option.getD_some]
        rw [← e4, List.take_left, List.drop_left]
        apply hun
        have : flat [(sz.map Prod.fst).prod, (sx.map Prod.fst).prod] [flat (sz.map Prod.fst) oz, flat (sx.map Prod.fst) ox] =
          flat (sz.map Prod.fst) oz * (sx.map Prod.fst).prod + flat (sx.map Prod.fst) ox := by simp [flat]
        rw [this, unflat_append_flat rz rx]
        exact ungather_gather (by rw [hol']; exact hptp) (gather_append r2 r1)

end operand

end QuantiT.BT
