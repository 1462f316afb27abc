import Verif.Model.BTensorOps
import Verif.Lemmas.Dense
/-
Rearranging dimensions.
-/
set_option linter.unusedSectionVars false
namespace QuantiT.BT
open QuantiT.Spec

theorem gather_nil {α : Type} (l : List α) : gather [] l = some [] := rfl

theorem gather_cons {α : Type} {j : Nat} {p : List Nat} {l l' : List α} :
    gather (j :: p) l = some l' ↔ ∃ x r, l[j]? = some x ∧ gather p l = some r ∧ l' = x :: r := by
  simp only [gather, List.mapM_cons]
  rcases l[j]? with _ | x
  · simp
  · rcases List.mapM (fun j => l[j]?) p with _ | r
    · simp
    · simp [eq_comm]

theorem gather_iff {α : Type} {p : List Nat} {l l' : List α} :
    gather p l = some l' ↔ List.Forall₂ (fun j x => l[j]? = some x) p l' := by
  induction p generalizing l' with
  | nil => simp [gather_nil, eq_comm]
  | cons j p ih =>
    rw [gather_cons]
    constructor
    · rintro ⟨x, r, h1, h2, rfl⟩; exact .cons h1 (ih.mp h2)
    · intro h
      cases h with
      | cons h1 h2 => exact ⟨_, _, h1, ih.mpr h2, rfl⟩

theorem gather_length {α : Type} {p : List Nat} {l l' : List α} (h : gather p l = some l') : l'.length = p.length :=
  (gather_iff.mp h).length_eq.symm

theorem gather_isSome {α : Type} {p : List Nat} {l : List α} (h : ∀ j ∈ p, j < l.length) : ∃ l', gather p l = some l' := by
  induction p with
  | nil => exact ⟨[], rfl⟩
  | cons j p ih =>
    obtain ⟨r, hr⟩ := ih fun x hx => h x (by simp [hx])
    exact ⟨_, gather_cons.mpr ⟨_, r, List.getElem?_eq_getElem (h j (by simp)), hr, rfl⟩⟩

theorem gather_map {α β : Type} (f : α → β) {p : List Nat} {l l' : List α} (h : gather p l = some l') :
    gather p (l.map f) = some (l'.map f) := by
  induction p generalizing l' with
  | nil => rw [gather_nil] at h; cases h; rfl
  | cons j p ih =>
    obtain ⟨x, r, h1, h2, rfl⟩ := gather_cons.mp h
    exact gather_cons.mpr ⟨_, _, by rw [List.getElem?_map, h1]; rfl, ih h2, rfl⟩

theorem gather_getElem? {α : Type} {p : List Nat} {l l' : List α} (h : gather p l = some l') {i j : Nat}
    (hi : p[i]? = some j) : l'[i]? = l[j]? := by
  induction p generalizing l' i with
  | nil => simp at hi
  | cons a p ih =>
    obtain ⟨x, r, h1, h2, rfl⟩ := gather_cons.mp h
    cases i with
    | zero => simp at hi; subst hi; simp [h1]
    | succ i => simpa using ih h2 (by simpa using hi)

theorem gather_range {α : Type} (l : List α) : gather (List.range l.length) l = some l := by
  rw [gather_iff, List.forall₂_iff_get]
  refine ⟨by simp, ?_⟩
  intro i h1 h2
  simp

theorem gather_perm {α : Type} {p : List Nat} {l l' : List α} (hp : p.Perm (List.range l.length))
    (h : gather p l = some l') : l'.Perm l := by
  rcases l with _ | ⟨a, l⟩
  · have : p = [] := by simpa using hp
    subst this; rw [gather_nil] at h; cases h; exact .nil
  · have h1 : ∀ q : List Nat, ∀ r, gather q (a :: l) = some r → r = q.map (fun j => (a :: l).getD j a) := by
      intro q
      induction q with
      | nil => intro r h; rw [gather_nil] at h; cases h; rfl
      | cons j q ih =>
        intro r h
        obtain ⟨x, r', h1, h2, rfl⟩ := gather_cons.mp h
        rw [List.map_cons, ← ih r' h2]
        simp [List.getD_eq_getElem?_getD, h1]
    have h2 := hp.map (fun j => (a :: l).getD j a)
    rw [← h1 p l' h, ← h1 _ _ (gather_range (a :: l))] at h2
    exact h2

theorem perm_range_lt {p : List Nat} {n : Nat} (hp : p.Perm (List.range n)) : ∀ j ∈ p, j < n :=
  fun j hj => List.mem_range.mp (hp.mem_iff.mp hj)

theorem perm_range_length {p : List Nat} {n : Nat} (hp : p.Perm (List.range n)) : p.length = n := by
  simpa using hp.length_eq

theorem perm_range_nodup {p : List Nat} {n : Nat} (hp : p.Perm (List.range n)) : p.Nodup :=
  hp.nodup_iff.mpr List.nodup_range

theorem perm_range_of {p : List Nat} {n : Nat} (h1 : p.Nodup) (h2 : p.length = n) (h3 : ∀ j ∈ p, j < n) :
    p.Perm (List.range n) := by
  refine (List.subperm_of_subset h1 fun j hj => List.mem_range.mpr (h3 j hj)).perm_of_length_le ?_
  simp [h2]

/-- The inverse permutation. -/
def invPerm (p : List Nat) : List Nat := (List.range p.length).map fun j => p.idxOf j

theorem ungather_gather {p : List Nat} {l l' : List Nat} (hp : p.Perm (List.range l.length))
    (h : gather p l = some l') : ungather p l' = l := by
  apply List.ext_getElem?
  intro j
  have hl := perm_range_length hp
  by_cases hj : j < l.length
  · have hm : j ∈ p := hp.mem_iff.mpr (List.mem_range.mpr hj)
    have hi : p[p.idxOf j]? = some j := by
      rw [List.getElem?_eq_getElem (List.idxOf_lt_length_of_mem hm), List.getElem_idxOf]
    have := gather_getElem? h hi
    simp only [ungather, List.getElem?_map, List.getElem?_range (hl ▸ hj), Option.map_some,
      List.getD_eq_getElem?_getD, this, List.getElem?_eq_getElem hj, Option.getD_some]
  · rw [List.getElem?_eq_none (by simp [ungather]; omega), List.getElem?_eq_none (by omega)]

theorem gather_inj {p : List Nat} {l m l' : List Nat} (hl : p.Perm (List.range l.length))
    (hm : p.Perm (List.range m.length)) (h1 : gather p l = some l') (h2 : gather p m = some l') : l = m := by
  rw [← ungather_gather hl h1, ungather_gather hm h2]

variable {G R : Type}

theorem sections_getElem? : ∀ {shape : Shape G} {b : List Nat} {secs}, sections shape b = some secs →
    ∀ (j : Nat) (d : Dim G), shape[j]? = some d → ∃ x s, b[j]? = some x ∧ secs[j]? = some s ∧ d[x]? = some s
  | [], [], _, _, j, d, hd => by simp at hd
  | [], _ :: _, _, h, _, _, _ => by simp [sections] at h
  | _ :: _, [], _, h, _, _, _ => by simp [sections] at h
  | d0 :: ds, b0 :: bs, secs, h, j, d, hd => by
    obtain ⟨s, r, h1, h2, rfl⟩ := sections_cons.mp h
    cases j with
    | zero => simp at hd; subst hd; exact ⟨b0, s, rfl, rfl, h1⟩
    | succ j => simpa using sections_getElem? h2 j d (by simpa using hd)

theorem sections_gather {shape : Shape G} {b secs} (h : sections shape b = some secs) {p : List Nat} {shape' b' secs'}
    (h1 : gather p shape = some shape') (h2 : gather p b = some b') (h3 : gather p secs = some secs') :
    sections shape' b' = some secs' := by
  induction p generalizing shape' b' secs' with
  | nil => rw [gather_nil] at h1 h2 h3; cases h1; cases h2; cases h3; rfl
  | cons j p ih =>
    obtain ⟨d, r, hd, hr, rfl⟩ := gather_cons.mp h1
    obtain ⟨x, rb, hx, hrb, rfl⟩ := gather_cons.mp h2
    obtain ⟨s, rs, hs, hrs, rfl⟩ := gather_cons.mp h3
    obtain ⟨x', s', e1, e2, e3⟩ := sections_getElem? h j d hd
    rw [hx] at e1; cases e1
    rw [hs] at e2; cases e2
    exact sections_cons.mpr ⟨s, rs, e3, ih hr hrb hrs, rfl⟩

theorem locateAll_getElem? : ∀ {shape : Shape G} {e b o : List Nat}, locateAll shape e = some (b, o) →
    ∀ (j : Nat) (d : Dim G), shape[j]? = some d → ∃ x y z, e[j]? = some x ∧ b[j]? = some y ∧ o[j]? = some z ∧ locate d x = some (y, z)
  | [], [], _, _, _, j, d, hd => by simp at hd
  | [], _ :: _, _, _, h, _, _, _ => by simp [locateAll] at h
  | _ :: _, [], _, _, h, _, _, _ => by simp [locateAll] at h
  | d0 :: ds, e0 :: es, b, o, h, j, d, hd => by
    obtain ⟨b0, o0, bs, os, h1, h2, h3⟩ := locateAll_cons.mp h
    cases h3
    cases j with
    | zero => simp at hd; subst hd; exact ⟨_, _, _, rfl, rfl, rfl, h1⟩
    | succ j => simpa using locateAll_getElem? h2 j d (by simpa using hd)

theorem locateAll_gather {shape : Shape G} {e b o} (h : locateAll shape e = some (b, o)) {p : List Nat} {shape' e' b' o'}
    (h1 : gather p shape = some shape') (h2 : gather p e = some e') (h3 : gather p b = some b')
    (h4 : gather p o = some o') : locateAll shape' e' = some (b', o') := by
  induction p generalizing shape' e' b' o' with
  | nil => rw [gather_nil] at h1 h2 h3 h4; cases h1; cases h2; cases h3; cases h4; rfl
  | cons j p ih =>
    obtain ⟨d, r, hd, hr, rfl⟩ := gather_cons.mp h1
    obtain ⟨x, rb, hx, hrb, rfl⟩ := gather_cons.mp h2
    obtain ⟨s, rs, hs, hrs, rfl⟩ := gather_cons.mp h3
    obtain ⟨u, ru, hu, hru, rfl⟩ := gather_cons.mp h4
    obtain ⟨x', s', z', e1, e2, e3, e4⟩ := locateAll_getElem? h j d hd
    rw [hx] at e1; cases e1
    rw [hs] at e2; cases e2
    rw [hu] at e3; cases e3
    exact locateAll_cons.mpr ⟨s, u, rs, ru, e4, ih hr hrb hrs hru, rfl⟩

theorem locateAll_length : ∀ {shape : Shape G} {e b o : List Nat}, locateAll shape e = some (b, o) →
    e.length = shape.length ∧ b.length = shape.length ∧ o.length = shape.length := by
  intro shape
  induction shape with
  | nil => intro e b o h; cases e <;> simp [locateAll] at h; simp [h]
  | cons d ds ih =>
    intro e b o h
    cases e with
    | nil => simp [locateAll] at h
    | cons x xs =>
      obtain ⟨b0, o0, bs, os, h1, h2, h3⟩ := locateAll_cons.mp h
      cases h3
      have := ih h2
      simp [this]

/-! ### Sorting distinct keys -/

theorem sortKeys_perm (l : FM (List Nat) (Blk R)) : (sortKeys l).Perm l := List.perm_insertionSort _ _

theorem sortKeys_sorted {l : FM (List Nat) (Blk R)} (h : (l.map Prod.fst).Nodup) : Sorted (sortKeys l) := by
  have h1 : (sortKeys l).Pairwise (fun a b => a.1 ≤ b.1) := by
    have : Std.Total (fun a b : List Nat × Blk R => a.1 ≤ b.1) := ⟨fun a b => le_total a.1 b.1⟩
    have : IsTrans (List Nat × Blk R) (fun a b => a.1 ≤ b.1) := ⟨fun a b c => le_trans⟩
    exact List.pairwise_insertionSort _ _
  have h2 : ((sortKeys l).map Prod.fst).Nodup := ((sortKeys_perm l).map Prod.fst).nodup_iff.mpr h
  rw [List.Nodup, List.pairwise_map] at h2
  exact (h1.and h2).imp fun ⟨a, b⟩ => lt_of_le_of_ne a b

theorem nodup_of_sorted {m : FM (List Nat) (Blk R)} (h : Sorted m) : (m.map Prod.fst).Nodup := by
  rw [List.Nodup, List.pairwise_map]
  exact h.imp fun a => ne_of_lt a

theorem lookup_iff_mem {m : FM (List Nat) (Blk R)} (h : Sorted m) {k v} : lookup m k = some v ↔ (k, v) ∈ m :=
  ⟨mem_of_lookup, fun hm => lookup_of_mem h hm⟩

end QuantiT.BT
