import Verif.Props.RandomString
import Verif.Props.Identity
import Verif.Props.View
import Verif.Props.BTensor
/-
C48: the random block MPS.
-/
namespace QuantiT
namespace RM
open Spec
variable {G R : Type} [AddCommGroup G] [LinearOrder G]

/-! ### Sections of a bond -/

/-- Sizes and values of the runs of equal elements; `sz` elements of the first run were already counted. -/
def runs : List G → Nat → Dim G
  | [], _ => []
  | x :: r, sz => if r.head? ≠ some x then (sz + 1, x) :: runs r 0 else runs r (sz + 1)

theorem runs_ne_nil : ∀ {L : List G} {sz : Nat}, L ≠ [] → runs L sz ≠ []
  | [], _, h => absurd rfl h
  | [x], sz, _ => by simp [runs]
  | x :: y :: r, sz, _ => by
    simp only [runs]
    split
    · simp
    · exact runs_ne_nil (L := y :: r) (by simp)

theorem runs_length_indep : ∀ (L : List G) (a b : Nat), (runs L a).length = (runs L b).length
  | [], _, _ => rfl
  | x :: r, a, b => by
    simp only [runs]
    split
    · simp
    · exact runs_length_indep r _ _

theorem sectors_eq : ∀ {L : List G}, L ≠ [] → sectors L = .ok (runs L 0).length
  | [], h => absurd rfl h
  | [x], _ => by simp [sectors, runs]
  | x :: y :: r, _ => by
    have ih := sectors_eq (L := y :: r) (by simp)
    have e : runs (x :: y :: r) 0 = if (y :: r).head? ≠ some x then (0 + 1, x) :: runs (y :: r) 0 else runs (y :: r) (0 + 1) := rfl
    simp only [sectors, ih, bind, Except.bind]
    rw [e]
    by_cases h : x = y
    · subst h
      simp only [ne_eq, not_true_eq_false, if_false, add_zero, List.head?_cons]
      rw [runs_length_indep (x :: r) 0 (0 + 1)]
    · have h' : (y :: r).head? ≠ some x := by simp; exact fun e => h e.symm
      rw [if_pos h, if_pos h', List.length_cons]

theorem fillSectors_eq : ∀ (L : List G) (sz ix : Nat) (arr : List (Nat × G)), arr.length = ix + (runs L sz).length →
    fillSectors L sz ix arr = .ok (arr.take ix ++ runs L sz)
  | [], sz, ix, arr, h => by
    simp only [runs, List.length_nil, add_zero] at h
    simp [fillSectors, runs, ← h]
  | x :: r, sz, ix, arr, h => by
    simp only [fillSectors, runs] at h ⊢
    split
    · rename_i hx
      rw [if_pos hx] at h
      simp only [List.length_cons] at h
      rw [if_pos (by omega), fillSectors_eq r 0 (ix + 1) _ (by rw [List.length_set]; omega)]
      congr 1
      rw [List.take_set, List.take_add_one]
      have hix : ix < arr.length := by omega
      rw [List.set_append]
      simp [hix, List.take_append, Nat.min_eq_left (Nat.le_of_lt hix)]
    · rename_i hx
      rw [if_neg hx] at h
      exact fillSectors_eq r (sz + 1) ix arr h

theorem runs_pos : ∀ (L : List G) (sz : Nat), ∀ s ∈ runs L sz, 0 < s.1
  | [], _, _, h => by cases h
  | x :: r, sz, s, h => by
    simp only [runs] at h
    split at h
    · rcases List.mem_cons.1 h with rfl | h
      · simp
      · exact runs_pos r 0 s h
    · exact runs_pos r _ s h

theorem mem_runs : ∀ (L : List G) (sz : Nat) (x : G), x ∈ L → ∃ n, (n, x) ∈ runs L sz
  | [], _, _, h => by cases h
  | y :: r, sz, x, h => by
    simp only [runs]
    split
    · rcases List.mem_cons.1 h with rfl | h
      · exact ⟨sz + 1, by simp⟩
      · obtain ⟨n, hn⟩ := mem_runs r 0 x h
        exact ⟨n, by simp [hn]⟩
    · rename_i hh
      have hmem : x ∈ r := by
        rcases List.mem_cons.1 h with rfl | h
        · exact List.mem_of_head? (not_not.1 hh)
        · exact h
      exact mem_runs r (sz + 1) x hmem

theorem runs_size : ∀ (L : List G) (sz : Nat), L ≠ [] → dimSize (runs L sz) = L.length + sz
  | [], _, h => absurd rfl h
  | [x], sz, _ => by simp [runs, dimSize]; omega
  | x :: y :: r, sz, _ => by
    have ih := fun sz => runs_size (y :: r) sz (by simp)
    rw [runs]
    split
    · have := ih 0
      simp only [dimSize, List.map_cons, List.sum_cons, List.length_cons] at this ⊢
      omega
    · rw [ih]; simp only [List.length_cons]; omega

theorem runs_replicate (x : G) : ∀ (n sz : Nat), runs (List.replicate (n + 1) x) sz = [(n + 1 + sz, x)]
  | 0, sz => by simp [runs, add_comm]
  | n + 1, sz => by
    rw [List.replicate_succ, runs, if_neg (by simp [List.replicate_succ]), runs_replicate x n (sz + 1)]
    congr 2; omega

/-! ### The sites -/

/-- The sections of a physical index as a tensor of one dimension. -/
def physOf (d : Dim G) : BT G R := ⟨[d], 0, []⟩

/-- Charges of the states of a physical index. -/
def charges (d : Dim G) : List G := d.map Prod.snd

omit [LinearOrder G] in
theorem cvalsOf_phys (d : Dim G) : cvalsOf (physOf d : BT G R) = charges d := by simp [cvalsOf, physOf, charges]

/-- Charges chosen by a string. -/
def qOf (dims : List (Dim G)) (o : List Nat) : List G := (chosen (dims.map charges) o).getD []

/-- What is left of the total after `k` sites, for every string. -/
def accAt (dims : List (Dim G)) (c : G) (strings : List (List Nat)) (k : Nat) : List G :=
  strings.map fun o => c - ((qOf dims o).take k).sum

/-- Right bond of site `k`. -/
def rightAt (dims : List (Dim G)) (c : G) (strings : List (List Nat)) (k : Nat) : Dim G :=
  runs ((accAt dims c strings (k + 1)).insertionSort (· ≤ ·)) 0

/-- Left bond of site `k`. -/
def leftAt (dims : List (Dim G)) (c : G) (strings : List (List Nat)) : Nat → Dim G
  | 0 => [(1, 0)]
  | k + 1 => flipped (rightAt dims c strings k)

omit [AddCommGroup G] [LinearOrder G] in
theorem chosen_get : ∀ {phys : List (List G)} {o qs} {i : Nat} {a : List G}, chosen phys o = some qs → phys[i]? = some a →
    ∃ s q, o[i]? = some s ∧ a[s]? = some q ∧ qs[i]? = some q
  | [], _, _, _, _, _, h => by simp at h
  | _ :: _, [], _, _, _, h, _ => by cases h
  | b :: phys, s :: o, qs, i, a, h, hi => by
    have : ∃ q r, b[s]? = some q ∧ chosen phys o = some r ∧ qs = q :: r := by
      simp only [chosen] at h
      split at h
      · rename_i q r h1 h2; cases h; exact ⟨q, r, h1, h2, rfl⟩
      · cases h
    obtain ⟨q, r, h1, h2, rfl⟩ := this
    cases i with
    | zero => cases hi; exact ⟨s, q, rfl, h1, rfl⟩
    | succ i => exact chosen_get (i := i) h2 (by simpa using hi)

omit [LinearOrder G] in
theorem accumulate_eq {dims : List (Dim G)} {c : G} {strings : List (List Nat)}
    (hs : ∀ o ∈ strings, HasTotal (dims.map charges) o c) {i : Nat} {d : Dim G} (hi : dims[i]? = some d) :
    accumulate (charges d) i strings (accAt dims c strings i) = .ok (accAt dims c strings (i + 1)) := by
  have hi' : (dims.map charges)[i]? = some (charges d) := by rw [List.getElem?_map, hi]; rfl
  unfold accumulate accAt
  rw [List.zip_map_right, List.mapM_map]
  have e : strings.zip strings = strings.map fun o => (o, o) := by
    rw [List.zip_eq_zipWith, List.zipWith_self]
  rw [e, List.mapM_map]
  apply BT.mapM_ok
  intro o ho
  obtain ⟨qs, h1, _⟩ := hs o ho
  obtain ⟨s, q, g1, g2, g3⟩ := chosen_get h1 hi'
  have hq : qOf dims o = qs := by simp [qOf, h1]
  have e2 : c - ((qOf dims o).take i).sum + -q = c - ((qOf dims o).take (i + 1)).sum := by
    rw [hq, List.take_add_one, g3, List.sum_append]
    simp
    abel
  rw [← e2]
  show (do let s ← BT.orUb o[i]?; let q ← BT.orUb (charges d)[s]?; Except.ok (c - ((qOf dims o).take i).sum + -q)) = _
  rw [g1]
  show (do let q ← BT.orUb (charges d)[s]?; Except.ok (c - ((qOf dims o).take i).sum + -q)) = _
  rw [g2]
  rfl

theorem right_ok {dims : List (Dim G)} {c : G} {strings : List (List Nat)} (hne : strings ≠ [])
    (hs : ∀ o ∈ strings, HasTotal (dims.map charges) o c) {i : Nat} {d : Dim G} (hi : dims[i]? = some d) (rule : G) :
    makeRightSide strings (accAt dims c strings i) rule (charges d) i
      = .ok ((⟨[rightAt dims c strings i], rule, []⟩ : BT G R), accAt dims c strings (i + 1)) := by
  have hL : (accAt dims c strings (i + 1)).insertionSort (· ≤ ·) ≠ [] := by
    intro e
    have := congrArg List.length e
    rw [List.length_insertionSort] at this
    simp [accAt] at this
    exact hne this
  obtain ⟨o, ho⟩ := List.exists_mem_of_ne_nil _ hne
  obtain ⟨qs, h1, _⟩ := hs o ho
  obtain ⟨s, q, _, g2, _⟩ := chosen_get h1 (show (dims.map charges)[i]? = some (charges d) by rw [List.getElem?_map, hi]; rfl)
  have hd : 0 < (charges d).length := by
    have := (List.getElem?_eq_some_iff.1 g2).1; omega
  simp only [makeRightSide, accumulate_eq hs hi, bind, Except.bind, sectors_eq hL, List.getElem?_eq_getElem hd, BT.orUb]
  rw [fillSectors_eq _ 0 0 _ (by simp)]
  simp [rightAt]

/-- Every allowed block is stored, with the sizes of its sections, and no other. -/
structure Filled (t : BT G R) : Prop where
  cons : Conserving t.shape t.rule t.blocks
  full : ∀ b, Allowed t.shape t.rule b → (lookup t.blocks b).isSome

theorem randLike_ok [Zero R] (fac : List Nat → List Nat → List Nat → R) (shape : Shape G) (rule : G) (hpos : ∀ d ∈ shape, d ≠ [])
    (bl : FM (List Nat) (Blk R)) :
    ∃ t, randLike fac ⟨shape, rule, bl⟩ = .ok t ∧ t.shape = shape ∧ t.rule = rule ∧ Filled t := by
  let mkv : List Nat → Option (Blk R) := fun b =>
    (sections shape b).map fun secs => ⟨secs.map Prod.fst, fac b (secs.map Prod.fst)⟩
  obtain ⟨bl', h1, h2, h3⟩ := BT.fill_eq (rule := rule) (mkv := mkv)
    (mk := fun idx sz => .ok (some ⟨sz, fac idx sz⟩)) hpos
    (by intro idx secs hs _; simp [mkv, hs]) [] .nil
  refine ⟨⟨shape, rule, bl'⟩, ?_, rfl, rfl, ⟨⟨h2, ?_⟩, ?_⟩⟩
  · unfold randLike BT.factoryWrap BT.sparseZeros
    dsimp only
    rw [h1]
  · intro k b hb
    have hl := (BT.lookup_iff_mem h2).2 hb
    rw [h3] at hl
    split at hl
    · rename_i ha
      obtain ⟨secs, hs, hc⟩ := ha
      simp [mkv, hs, lookup] at hl
      exact ⟨secs, hs, hc, by rw [← hl]⟩
    · simp [lookup] at hl
  · intro b hb
    show (lookup bl' b).isSome
    rw [h3, if_pos hb]
    obtain ⟨secs, hs, hc⟩ := hb
    simp [mkv, hs]

theorem rightAt_ne_nil (dims : List (Dim G)) (c : G) {strings : List (List Nat)} (hne : strings ≠ []) (k : Nat) :
    rightAt dims c strings k ≠ [] := by
  apply runs_ne_nil
  intro e
  have := congrArg List.length e
  rw [List.length_insertionSort] at this
  simp [accAt] at this
  exact hne this

theorem leftAt_ne_nil (dims : List (Dim G)) (c : G) {strings : List (List Nat)} (hne : strings ≠ []) (k : Nat) :
    leftAt dims c strings k ≠ [] := by
  cases k with
  | zero => simp [leftAt]
  | succ k => simp [leftAt, flipped, rightAt_ne_nil dims c hne k]

/-- The tensors the loop over the sites makes. -/
theorem siteLoop_ok [Zero R] (fac : Nat → List Nat → List Nat → List Nat → R) {dims : List (Dim G)} {c : G}
    {strings : List (List Nat)} (hne : strings ≠ []) (hs : ∀ o ∈ strings, HasTotal (dims.map charges) o c)
    (hd : ∀ d ∈ dims, d ≠ []) :
    ∀ (suf : List (Dim G)) (i : Nat), dims.drop i = suf →
    ∃ sites : List (BT G R), siteLoop fac c strings i (suf.map physOf) ⟨[leftAt dims c strings i], 0, []⟩ (accAt dims c strings i)
        = .ok sites ∧ sites.length = suf.length ∧
      ∀ k t, sites[k]? = some t → ∃ d, dims[i + k]? = some d ∧
        t.shape = [leftAt dims c strings (i + k), d, rightAt dims c strings (i + k)] ∧
        t.rule = (if i + k = 0 then c else 0) ∧ Filled t
  | [], i, _ => ⟨[], rfl, rfl, by simp⟩
  | d :: suf, i, h => by
    have hi : dims[i]? = some d := by
      have := congrArg List.head? h
      simpa [List.head?_drop] using this
    have h' : dims.drop (i + 1) = suf := by
      have := congrArg List.tail h
      simpa [List.tail_drop] using this
    obtain ⟨rest, r1, r2, r3⟩ := siteLoop_ok fac hne hs hd suf (i + 1) h'
    have hdn : d ≠ [] := hd d (List.mem_of_getElem? hi)
    obtain ⟨t, t1, t2, t3, t4⟩ := randLike_ok (R := R) (fac i) [leftAt dims c strings i, d, rightAt dims c strings i]
      (if i = 0 then c else 0)
      (by
        intro x hx
        simp only [List.mem_cons, List.not_mem_nil, or_false] at hx
        rcases hx with rfl | rfl | rfl
        · exact leftAt_ne_nil dims c hne i
        · exact hdn
        · exact rightAt_ne_nil dims c hne i) []
    refine ⟨t :: rest, ?_, by simp [r2], ?_⟩
    · rw [List.map_cons, siteLoop, cvalsOf_phys, right_ok (R := R) hne hs hi]
      simp only [bind, Except.bind]
      rw [BT.C32_shape_from_list _ (by simp)]
      simp only [List.map_cons, List.map_nil, List.flatten_cons, List.flatten_nil, List.sum_cons, List.sum_nil, physOf,
        List.append_nil, List.cons_append, List.nil_append, zero_add, add_zero, t1]
      have e : (BT.inverseCvals (⟨[rightAt dims c strings i], 0, []⟩ : BT G R))
          = ⟨[leftAt dims c strings (i + 1)], 0, []⟩ := by
        simp [BT.inverseCvals, leftAt, flipped]
      by_cases h0 : i = 0
      · simp only [h0, if_true, BT.setRule, List.length_nil, ne_eq, not_true_eq_false, if_false]
        rw [h0] at e r1
        rw [e, r1]
      · simp only [h0, if_false]
        rw [e, r1]
    · intro k t' hk
      cases k with
      | zero => cases hk; exact ⟨d, hi, t2, t3, t4⟩
      | succ k =>
        have := r3 k t' (by simpa using hk)
        rw [show i + 1 + k = i + (k + 1) by omega] at this
        exact this

theorem total_acc {dims : List (Dim G)} {c : G} {strings : List (List Nat)}
    (hs : ∀ o ∈ strings, HasTotal (dims.map charges) o c) :
    accAt dims c strings dims.length = List.replicate strings.length 0 := by
  rw [List.eq_replicate_iff]
  refine ⟨by simp [accAt], ?_⟩
  intro x hx
  obtain ⟨o, ho, rfl⟩ := List.mem_map.1 hx
  obtain ⟨qs, h1, h2⟩ := hs o ho
  have hq : qOf dims o = qs := by simp [qOf, h1]
  have := (chosen_length h1).2
  rw [List.length_map] at this
  rw [hq, ← this, List.take_length, h2, sub_self]

theorem rightAt_last {dims : List (Dim G)} {c : G} {strings : List (List Nat)} (hne : strings ≠ [])
    (hs : ∀ o ∈ strings, HasTotal (dims.map charges) o c) (hd : dims ≠ []) :
    rightAt dims c strings (dims.length - 1) = [(strings.length, 0)] := by
  have h1 : dims.length - 1 + 1 = dims.length := by
    have := List.length_pos_iff.2 hd; omega
  obtain ⟨n, hn⟩ : ∃ n, strings.length = n + 1 := ⟨strings.length - 1, by have := List.length_pos_iff.2 hne; omega⟩
  unfold rightAt
  rw [h1, total_acc hs]
  have : (List.replicate strings.length (0 : G)).insertionSort (· ≤ ·) = List.replicate strings.length 0 := by
    apply List.Pairwise.insertionSort_eq
    rw [List.pairwise_replicate]
    right; exact le_refl _
  rw [this, hn, runs_replicate]

/-- A block tensor as its shape, selection rule and blocks. -/
def parts (t : BT G R) : Shape G × G × List (List Nat × Blk R) := (t.shape, t.rule, t.blocks)

omit [LinearOrder G] in
theorem allowed_three {l d r : Dim G} {rule : G} {a s b : Nat} :
    Allowed [l, d, r] rule [a, s, b] ↔
      ∃ x y z, l[a]? = some x ∧ d[s]? = some y ∧ r[b]? = some z ∧ x.2 + y.2 + z.2 = rule := by
  constructor
  · rintro ⟨secs, h1, h2⟩
    simp only [sections] at h1
    cases e1 : l[a]? <;> cases e2 : d[s]? <;> cases e3 : r[b]? <;> simp [e1, e2, e3] at h1
    subst h1
    refine ⟨_, _, _, rfl, rfl, rfl, ?_⟩
    simpa [charge, add_assoc] using h2
  · rintro ⟨x, y, z, h1, h2, h3, h4⟩
    refine ⟨[x, y, z], by simp [sections, h1, h2, h3], by simpa [charge, add_assoc] using h4⟩

omit [LinearOrder G] in
theorem chosen_of_get : ∀ {phys : List (List G)} {o : List Nat}, o.length = phys.length →
    (∀ (i : Nat) a s, phys[i]? = some a → o[i]? = some s → (a[s]?).isSome) → ∃ qs, chosen phys o = some qs
  | [], [], _, _ => ⟨[], rfl⟩
  | [], _ :: _, h, _ => by simp at h
  | _ :: _, [], h, _ => by simp at h
  | a :: phys, s :: o, h, hg => by
    obtain ⟨qs, hq⟩ := chosen_of_get (phys := phys) (o := o) (by simpa using h)
      (fun i a s h1 h2 => hg (i + 1) a s (by simpa using h1) (by simpa using h2))
    obtain ⟨q, e⟩ := Option.isSome_iff_exists.1 (hg 0 a s rfl rfl)
    exact ⟨q :: qs, by simp [chosen, e, hq]⟩

omit [LinearOrder G] in
/-- The charges of the bonds telescope: along any path of allowed blocks the physical charges compose to the total. -/
theorem C48_total {dims : List (Dim G)} {c : G} {bond : Nat} {sites : List (Shape G × G × List (List Nat × Blk R))}
    (hb : BlockChain dims c bond sites) (hne : dims ≠ []) {o : List Nat} {β : Nat → Nat} (hp : AllowedPath sites o β) :
    HasTotal (dims.map charges) o c := by
  obtain ⟨hl, hp⟩ := hp
  have hpos : 0 < dims.length := List.length_pos_iff.2 hne
  have hlen := hb.length
  obtain ⟨qs, hqs⟩ := chosen_of_get (phys := dims.map charges) (o := o) (by rw [List.length_map, hl, hlen]) (by
    intro i a s h1 h2
    have hi : i < sites.length := by rw [← hl]; exact (List.getElem?_eq_some_iff.1 h2).1
    obtain ⟨l, d, r, g1, g2, _⟩ := hb.site i _ (List.getElem?_eq_getElem hi)
    have := hp i _ s (List.getElem?_eq_getElem hi) h2
    rw [g2] at this
    obtain ⟨x, y, z, _, k2, _⟩ := allowed_three.1 this
    rw [List.getElem?_map, g1] at h1
    cases h1
    simp [charges, k2])
  have key : ∀ k, k < dims.length → ∃ t r s, sites[k]? = some t ∧ t.1[2]? = some r ∧ r[β (k + 1)]? = some s ∧
      s.2 = c - (qs.take (k + 1)).sum := by
    intro k
    induction k with
    | zero =>
      intro hk
      have hi : 0 < sites.length := by omega
      obtain ⟨l, d, r, g1, g2, g3, _, g5, _⟩ := hb.site 0 _ (List.getElem?_eq_getElem hi)
      have ho : 0 < o.length := by omega
      have := hp 0 _ _ (List.getElem?_eq_getElem hi) (List.getElem?_eq_getElem ho)
      rw [g2, g5] at this
      obtain ⟨x, y, z, k1, k2, k3, k4⟩ := allowed_three.1 this
      obtain ⟨s, q, f1, f2, f3⟩ := chosen_get hqs (show (dims.map charges)[0]? = some (charges d) by
        rw [List.getElem?_map, g1]; rfl)
      rw [List.getElem?_eq_getElem ho] at f1
      cases f1
      simp only [charges, List.getElem?_map, k2, Option.map_some, Option.some.injEq] at f2
      rw [g3 rfl] at k1
      have hx : x.2 = 0 := by
        have := List.mem_of_getElem? k1
        simp at this; rw [this]
      refine ⟨_, r, z, List.getElem?_eq_getElem hi, by rw [g2]; rfl, k3, ?_⟩
      have e1 : (qs.take (0 + 1)).sum = q := by
        rw [List.take_add_one, f3]; simp
      rw [e1, ← f2, ← (show x.2 + y.2 + z.2 = c by simpa using k4), hx]
      abel
    | succ k ih =>
      intro hk
      obtain ⟨t, r, s, h1, h2, h3, h4⟩ := ih (by omega)
      have hi : k + 1 < sites.length := by omega
      obtain ⟨l, d, r', g1, g2, _, _, g5, _⟩ := hb.site (k + 1) _ (List.getElem?_eq_getElem hi)
      have ho : k + 1 < o.length := by omega
      have := hp (k + 1) _ _ (List.getElem?_eq_getElem hi) (List.getElem?_eq_getElem ho)
      rw [g2, g5] at this
      obtain ⟨x, y, z, k1, k2, k3, k4⟩ := allowed_three.1 this
      obtain ⟨r2, j1, j2, _⟩ := hb.bonds k _ _ h1 (List.getElem?_eq_getElem hi)
      rw [h2] at j1
      cases j1
      rw [g2] at j2
      cases j2
      obtain ⟨s', q, f1, f2, f3⟩ := chosen_get hqs (show (dims.map charges)[k + 1]? = some (charges d) by
        rw [List.getElem?_map, g1]; rfl)
      rw [List.getElem?_eq_getElem ho] at f1
      cases f1
      simp only [charges, List.getElem?_map, k2, Option.map_some, Option.some.injEq] at f2
      rw [List.getElem?_map, h3] at k1
      cases k1
      refine ⟨_, r', z, List.getElem?_eq_getElem hi, by rw [g2]; rfl, k3, ?_⟩
      have e1 : (qs.take (k + 1 + 1)).sum = (qs.take (k + 1)).sum + q := by
        rw [List.take_add_one (i := k + 1), f3, List.sum_append]; simp
      rw [if_neg (by omega)] at k4
      simp only [f2, h4] at k4
      rw [e1]
      have : z.2 = -(-(c - (qs.take (k + 1)).sum) + q) := by
        rw [eq_neg_iff_add_eq_zero, ← k4]; abel
      rw [this]; abel
  obtain ⟨t, r, s, h1, h2, h3, h4⟩ := key (dims.length - 1) (by omega)
  obtain ⟨l, d, r', g1, g2, _, g4, _⟩ := hb.site _ _ h1
  rw [g2] at h2
  cases h2
  rw [g4 (by omega)] at h3
  have hs0 : s.2 = 0 := by
    have := List.mem_of_getElem? h3
    simp at this; rw [this]
  have hq := (chosen_length hqs).2
  rw [List.length_map] at hq
  rw [show dims.length - 1 + 1 = qs.length by omega, List.take_length, hs0] at h4
  exact ⟨qs, hqs, (sub_eq_zero.1 h4.symm).symm⟩

theorem mapM_forall {α β : Type} {f : α → Res β} : ∀ {l : List α} {r}, l.mapM f = .ok r →
    List.Forall₂ (fun x y => f x = .ok y) l r
  | [], r, h => by simp [pure, Except.pure] at h; subst h; exact .nil
  | x :: l, r, h => by
    rw [List.mapM_cons] at h
    rcases hx : f x with e | y
    · rw [hx] at h; simp [bind, Except.bind] at h
    · rcases hl : l.mapM f with e | ys
      · rw [hx, hl] at h; simp [bind, Except.bind] at h
      · rw [hx, hl] at h
        simp [bind, Except.bind, pure, Except.pure] at h
        subst h
        exact .cons hx (mapM_forall hl)

omit [LinearOrder G] in
theorem accAt_zero (dims : List (Dim G)) (c : G) (strings : List (List Nat)) :
    accAt dims c strings 0 = List.replicate strings.length c := by
  rw [List.eq_replicate_iff]
  refine ⟨by simp [accAt], ?_⟩
  intro x hx
  obtain ⟨o, _, rfl⟩ := List.mem_map.1 hx
  simp

theorem rightAt_size (dims : List (Dim G)) (c : G) {strings : List (List Nat)} (hne : strings ≠ []) (k : Nat) :
    dimSize (rightAt dims c strings k) = strings.length := by
  unfold rightAt
  rw [runs_size _ 0 (by
    intro e
    have := congrArg List.length e
    rw [List.length_insertionSort] at this
    simp [accAt] at this
    exact hne this), List.length_insertionSort]
  simp [accAt]

theorem rightAt_mem (dims : List (Dim G)) (c : G) {strings : List (List Nat)} {o : List Nat} (ho : o ∈ strings) (k : Nat) :
    ∃ (b : Nat) (n : Nat), (rightAt dims c strings k)[b]? = some (n, c - ((qOf dims o).take (k + 1)).sum) := by
  have h1 : c - ((qOf dims o).take (k + 1)).sum ∈ (accAt dims c strings (k + 1)).insertionSort (· ≤ ·) := by
    rw [List.mem_insertionSort]
    exact List.mem_map.2 ⟨o, ho, rfl⟩
  obtain ⟨n, hn⟩ := mem_runs _ 0 _ h1
  obtain ⟨b, hb⟩ := List.getElem?_of_mem hn
  exact ⟨b, n, hb⟩

omit [LinearOrder G] in
theorem dimSize_flipped (d : Dim G) : dimSize (flipped d) = dimSize d := by
  simp [dimSize, flipped, Function.comp_def]

/-- The end of the last site is reduced to one element: what is left is the chain. -/
theorem chain_end [Zero R] {bond : Nat} (hbond : 0 < bond) {dims : List (Dim G)} (hne : dims ≠ []) (hd : ∀ d ∈ dims, 0 < dimSize d) {c : G}
    {strings : List (List Nat)} (hlen : strings.length = bond) (hsne : strings ≠ []) (htot : ∀ o ∈ strings, HasTotal (dims.map charges) o c)
    {sites : List (BT G R)} (s2 : sites.length = dims.length)
    (s3 : ∀ k t, sites[k]? = some t → ∃ d, dims[k]? = some d ∧ t.shape = [leftAt dims c strings k, d, rightAt dims c strings k] ∧
        t.rule = (if k = 0 then c else 0) ∧ Conserving t.shape t.rule t.blocks) :
    ∃ T back, sites.getLast? = some T ∧ BT.basicCreateView T [-1, -1, 0] true = .ok back ∧
      BlockChain dims c bond ((sites.set (sites.length - 1) back).map parts) ∧
      ∀ o ∈ strings, ∃ β, AllowedPath ((sites.set (sites.length - 1) back).map parts) o β := by
  have hL : 0 < dims.length := List.length_pos_iff.2 hne
  have hlast := rightAt_last hsne htot hne
  -- the last site
  have hlt : dims.length - 1 < sites.length := by omega
  obtain ⟨dl, l1, l2, l3, l4⟩ := s3 (dims.length - 1) _ (List.getElem?_eq_getElem hlt)
  generalize hT : sites[dims.length - 1] = T at l2 l3 l4
  have hleft : ∀ k, 0 < dimSize (leftAt dims c strings k) := by
    intro k
    cases k with
    | zero => simp [leftAt, dimSize]
    | succ k => rw [leftAt, dimSize_flipped, rightAt_size dims c hsne]; omega
  rw [hlast] at l2
  obtain ⟨back, b1, b2, b3, b4, _⟩ := BT.C30_view_preserve_rank_partial T l4 (by
      rw [l2]
      intro x hx
      simp only [List.mem_cons, List.not_mem_nil, or_false] at hx
      rcases hx with rfl | rfl | rfl
      · exact hleft _
      · exact hd _ (List.mem_of_getElem? l1)
      · simp [dimSize]; omega) [-1, -1, 0]
    (by
      rw [l2]
      refine .cons (Or.inl rfl) (.cons (Or.inl rfl) (.cons (Or.inr ⟨le_refl _, ?_⟩) .nil))
      simp [dimSize]; omega)
    (by
      rintro ⟨k, b⟩ hkb i d a h1 h2 h3
      rw [l2] at h1
      have hi : i = 2 := by
        have hi := (List.getElem?_eq_some_iff.1 h1).1
        simp at hi
        by_contra hc
        exact h3 1 (by omega) rfl
      subst hi
      cases h1; cases h2
      obtain ⟨secs, q1, _, _⟩ := l4.block k b hkb
      rw [l2] at q1
      match k, q1 with
      | [], q1 => simp [sections] at q1
      | [_], q1 => simp [sections] at q1
      | [_, _], q1 => simp [sections] at q1
      | [x, y, z], q1 =>
        simp only [sections] at q1
        have : z = 0 := by
          by_contra hz
          have : ([(strings.length, (0 : G))] : List (Nat × G))[z]? = none := by
            rw [List.getElem?_eq_none]; simp; omega
          rw [this] at q1
          simp at q1
        subst this
        have : (0 : Nat) < strings.length := by omega
        simp [locate, this]
      | _ :: _ :: _ :: _ :: _, q1 => simp [sections] at q1)
  have hpin : pinned [leftAt dims c strings (dims.length - 1), dl, [(strings.length, (0 : G))]] [-1, -1, 0]
      = [leftAt dims c strings (dims.length - 1), dl, [(1, 0)]] := by
    have : (0 : Nat) < strings.length := by omega
    simp [pinned, chargeAt, locate, this]
  rw [l2, hpin] at b2
  have e2 : sites.getLast? = some T := by
    rw [List.getLast?_eq_getElem?, s2, List.getElem?_eq_getElem hlt, hT]
  refine ⟨T, back, e2, b1, ?_, ?_⟩
  -- the tensor of every site
  all_goals
    have hsite : ∀ (i : Nat) t, ((sites.set (sites.length - 1) back).map parts)[i]? = some t → ∃ d, dims[i]? = some d ∧
        t.1 = [leftAt dims c strings i, d, if i + 1 = dims.length then [(1, 0)] else rightAt dims c strings i] ∧
        t.2.1 = (if i = 0 then c else 0) ∧ Conserving t.1 t.2.1 t.2.2 := by
      intro i t ht
      rw [List.getElem?_map, Option.map_eq_some_iff] at ht
      obtain ⟨u, hu, rfl⟩ := ht
      rw [List.getElem?_set] at hu
      by_cases hi : sites.length - 1 = i
      · rw [if_pos hi, if_pos (by omega)] at hu
        cases hu
        have hi' : dims.length - 1 = i := by omega
        rw [hi'] at l1 l3 b2
        refine ⟨dl, l1, ?_, by rw [← l3]; exact b3, b4⟩
        rw [if_pos (by omega)]
        exact b2
      · rw [if_neg hi] at hu
        obtain ⟨d, h1, h2, h3, h4⟩ := s3 i u hu
        have hil := (List.getElem?_eq_some_iff.1 hu).1
        refine ⟨d, h1, ?_, h3, h4⟩
        rw [if_neg (by omega)]
        exact h2
  · refine ⟨by simp [s2], ?_, ?_⟩
    · intro i t ht
      obtain ⟨d, h1, h2, h3, h4⟩ := hsite i t ht
      refine ⟨_, d, _, h1, h2, ?_, ?_, h3, h4⟩
      · rintro rfl; rfl
      · intro h; rw [if_pos h]
    · intro i t t' ht ht'
      obtain ⟨d, h1, h2, _⟩ := hsite i t ht
      obtain ⟨d', h1', h2', _⟩ := hsite (i + 1) t' ht'
      have hlt' := (List.getElem?_eq_some_iff.1 ht').1
      rw [List.length_map, List.length_set] at hlt'
      refine ⟨rightAt dims c strings i, ?_, ?_, ?_⟩
      · rw [h2, if_neg (by omega)]; rfl
      · rw [h2']; rfl
      · exact ⟨by rw [rightAt_size dims c hsne, hlen], runs_pos _ _⟩
  · intro o ho
    obtain ⟨qs, g1, g2⟩ := htot o ho
    have hq : qOf dims o = qs := by simp [qOf, g1]
    choose γ hγ using fun k => rightAt_mem dims c ho k
    have hol := chosen_length g1
    rw [List.length_map] at hol
    refine ⟨fun k => if k = 0 then 0 else if k = dims.length then 0 else γ (k - 1), by simp [s2, hol], ?_⟩
    intro i t s ht hst
    obtain ⟨d, h1, h2, h3, _⟩ := hsite i t ht
    obtain ⟨s', q, f1, f2, f3⟩ := chosen_get g1 (show (dims.map charges)[i]? = some (charges d) by
      rw [List.getElem?_map, h1]; rfl)
    rw [hst] at f1
    cases f1
    have hil : i < dims.length := (List.getElem?_eq_some_iff.1 h1).1
    simp only [charges, List.getElem?_map, Option.map_eq_some_iff] at f2
    obtain ⟨y, y1, y2⟩ := f2
    rw [h2, h3, allowed_three]
    have ext : (qs.take (i + 1)).sum = (qs.take i).sum + q := by
      rw [List.take_add_one, f3, List.sum_append]; simp
    -- the left section
    have hl : ∃ x : Nat × G, (leftAt dims c strings i)[(if i = 0 then 0 else if i = dims.length then 0 else γ (i - 1))]?
        = some x ∧ x.2 = (if i = 0 then c else 0) - (c - (qs.take i).sum) := by
      cases i with
      | zero => exact ⟨(1, 0), rfl, by simp⟩
      | succ i =>
        obtain ⟨n, hn⟩ := hγ i
        refine ⟨(n, -(c - (qs.take (i + 1)).sum)), ?_, by simp⟩
        rw [if_neg (by omega), if_neg (by omega), leftAt, flipped, List.getElem?_map, Nat.add_sub_cancel, hn, hq]
        rfl
    have hr : ∃ z : Nat × G, (if i + 1 = dims.length then [(1, 0)] else rightAt dims c strings i)[(if i + 1 = 0 then 0
        else if i + 1 = dims.length then 0 else γ (i + 1 - 1))]? = some z ∧ z.2 = c - (qs.take (i + 1)).sum := by
      have h0 : ¬ i + 1 = 0 := by omega
      rw [if_neg h0]
      by_cases h : i + 1 = dims.length
      · rw [if_pos h, if_pos h]
        refine ⟨(1, 0), rfl, ?_⟩
        have : qs.take (i + 1) = qs := by rw [List.take_of_length_le]; omega
        rw [this, g2, sub_self]
      · rw [if_neg h, if_neg h, Nat.add_sub_cancel]
        obtain ⟨n, hn⟩ := hγ i
        exact ⟨_, hn, by rw [hq]⟩
    obtain ⟨x, x1, x2⟩ := hl
    obtain ⟨z, z1, z2⟩ := hr
    refine ⟨x, y, z, x1, y1, z1, ?_⟩
    rw [x2, y2, z2, ext]
    abel

/-- The strings that are found. -/
theorem strings_total (dist : G → G → Int) (hdist : IsDist dist) (bond : Nat) (hbond : 0 < bond) (dims : List (Dim G))
    (hd : ∀ d ∈ dims, 0 < dimSize d) (c : G) (nPass : Nat) (ρ : Nat → Nat → Nat) (strings : List (List Nat))
    (hs : (List.range bond).mapM (fun j => generate dist (dims.map charges) c nPass (ρ j)) = .ok strings) :
    strings.length = bond ∧ strings ≠ [] ∧ (∀ d ∈ dims, d ≠ []) ∧ ∀ o ∈ strings, HasTotal (dims.map charges) o c := by
  have hsf := mapM_forall hs
  have hlen : strings.length = bond := by rw [← hsf.length_eq, List.length_range]
  have hsne : strings ≠ [] := by intro e; rw [e] at hlen; simp at hlen; omega
  have hdn : ∀ d ∈ dims, d ≠ [] := by
    intro d h e; have := hd d h; rw [e] at this; simp [dimSize] at this
  have htot : ∀ o ∈ strings, HasTotal (dims.map charges) o c := by
    intro o ho
    obtain ⟨j, hj⟩ := List.getElem?_of_mem ho
    have hjl : j < (List.range bond).length := by
      rw [hsf.length_eq]; exact (List.getElem?_eq_some_iff.1 hj).1
    have hjo : strings[j]'(by rw [← hsf.length_eq]; exact hjl) = o := (List.getElem?_eq_some_iff.1 hj).2
    have := hsf.get hjl (by rw [← hsf.length_eq]; exact hjl)
    simp only [List.get_eq_getElem, hjo] at this
    rcases C46_total dist hdist (dims.map charges) (by
      intro a ha
      obtain ⟨d, h, rfl⟩ := List.mem_map.1 ha
      simpa [charges] using hdn d h) c nPass (ρ ((List.range bond)[j])) with ⟨out, h1, h2⟩ | h
    · rw [h1] at this; cases this; exact h2
    · rw [h] at this; cases this
  exact ⟨hlen, hsne, hdn, htot⟩

/-- **C48**: if a string of charges is found for every state of the bonds, the random block MPS is made, it is a chain
with the requested physical dimensions, total charge and bond dimension, and every string follows a path of allowed
blocks. -/
theorem C48_linked [Zero R] (dist : G → G → Int) (hdist : IsDist dist) (bond : Nat) (hbond : 0 < bond) (dims : List (Dim G))
    (hne : dims ≠ []) (hd : ∀ d ∈ dims, 0 < dimSize d) (c : G) (nPass : Nat) (ρ : Nat → Nat → Nat)
    (fac : Nat → List Nat → List Nat → List Nat → R) (strings : List (List Nat))
    (hs : (List.range bond).mapM (fun j => generate dist (dims.map charges) c nPass (ρ j)) = .ok strings) :
    ∃ sites : List (BT G R), randomImpl dist bond (dims.map physOf) c nPass ρ fac = .ok sites ∧
      BlockChain dims c bond (sites.map parts) ∧
      ∀ o ∈ strings, ∃ β, AllowedPath (sites.map parts) o β := by
  obtain ⟨hlen, hsne, hdn, htot⟩ := strings_total dist hdist bond hbond dims hd c nPass ρ strings hs
  obtain ⟨sites, s1, s2, s3⟩ := siteLoop_ok (R := R) fac hsne htot hdn dims 0 (by simp)
  simp only [zero_add] at s3
  obtain ⟨T, back, e2, b1, h1, h2⟩ := chain_end hbond hne hd hlen hsne htot s2 fun k t hk => by
    obtain ⟨d, q1, q2, q3, q4⟩ := s3 k t hk
    exact ⟨d, q1, q2, q3, q4.cons⟩
  refine ⟨sites.set (sites.length - 1) back, ?_, h1, h2⟩
  unfold randomImpl
  have e1 : (dims.map (physOf (R := R))).map cvalsOf = dims.map charges := by
    simp [Function.comp_def, cvalsOf_phys]
  rw [accAt_zero, hlen] at s1
  simp only [leftAt] at s1
  simp only [e1, hs, s1, e2, BT.orUb, b1, bind, Except.bind]

theorem mapM_or {α β : Type} {f : α → Res β} {e : Fault} : ∀ (l : List α), (∀ x ∈ l, (∃ y, f x = .ok y) ∨ f x = .error e) →
    (∃ r, l.mapM f = .ok r) ∨ l.mapM f = .error e
  | [], _ => Or.inl ⟨[], rfl⟩
  | x :: l, h => by
    rw [List.mapM_cons]
    rcases h x (by simp) with ⟨y, hy⟩ | he
    · rcases mapM_or l (fun z hz => h z (by simp [hz])) with ⟨r, hr⟩ | he
      · exact Or.inl ⟨y :: r, by rw [hy, hr]; rfl⟩
      · exact Or.inr (by rw [hy, he]; rfl)
    · exact Or.inr (by rw [he]; rfl)

/-- **C48**, all outcomes of `random_bMPS(bond_dim, phys_dim_spec, q_num)`: a chain with the requested total charge, or
`std::invalid_argument`. -/
theorem C48_outcomes [Zero R] (dist : G → G → Int) (hdist : IsDist dist) (bond : Nat) (hbond : 0 < bond) (dims : List (Dim G))
    (hd : ∀ d ∈ dims, 0 < dimSize d) (c : G) (ρ : Nat → Nat → Nat) (fac : Nat → List Nat → List Nat → List Nat → R) :
    (∃ sites : List (BT G R), randomList dist bond (dims.map physOf) c ρ fac = .ok sites ∧
      BlockChain dims c bond (sites.map parts)) ∨
    randomList (R := R) dist bond (dims.map physOf) c ρ fac = Res.throw .invalidArgument := by
  unfold randomList
  by_cases hne : dims = []
  · right; rw [if_pos (by rw [hne]; rfl)]
  · rw [if_neg (by simpa using hne)]
    dsimp only
    generalize 1 + adjacentChanges (G := G) _ = n
    have hg : ∀ j ∈ List.range bond, (∃ y, generate dist (dims.map charges) c n (ρ j) = .ok y) ∨
        generate dist (dims.map charges) c n (ρ j) = Res.throw .invalidArgument := by
      intro j _
      rcases C46_total dist hdist (dims.map charges) (by
        intro a ha
        obtain ⟨d, h, rfl⟩ := List.mem_map.1 ha
        have := hd d h
        intro e
        simp only [charges, List.map_eq_nil_iff] at e
        rw [e] at this; simp [dimSize] at this) c n (ρ j) with ⟨out, h, _⟩ | h
      · exact Or.inl ⟨out, h⟩
      · exact Or.inr h
    rcases mapM_or _ hg with ⟨strings, hs⟩ | he
    · obtain ⟨sites, h1, h2, _⟩ := C48_linked (R := R) dist hdist bond hbond dims hne hd c n ρ fac strings hs
      exact Or.inl ⟨sites, h1, h2⟩
    · right
      unfold randomImpl
      have e1 : (dims.map (physOf (R := R))).map cvalsOf = dims.map charges := by
        simp [Function.comp_def, cvalsOf_phys]
      rw [e1, he]
      rfl

/-- **C48** and **C47** together, for the uniform chain: when the charges of the physical index form an arithmetic
progression, `random_bMPS(length, bond_dim, phys_dim_spec, q_num)` makes a chain with any total that some choice of
states has. -/
theorem C48_uniform [Zero R] (len bond : Nat) (hlen : 0 < len) (hbond : 0 < bond) (d : Dim ℤ) (hd : 0 < dimSize d)
    {s : ℤ} (hs : 0 < s) (hp : Progression s (charges d)) (c : ℤ)
    (hw : ∃ w, HasTotal ((List.replicate len d).map charges) w c)
    (ρ : Nat → Nat → Nat) (fac : Nat → List Nat → List Nat → List Nat → R) :
    ∃ sites : List (BT ℤ R), randomUniform zdist len bond (physOf d) c ρ fac = .ok sites ∧
      BlockChain (List.replicate len d) c bond (sites.map parts) := by
  have hr : ∀ j, ∃ out, generate zdist ((List.replicate len d).map charges) c 1 (ρ j) = .ok out := by
    intro j
    obtain ⟨out, h, _⟩ := C47_progression_partial hs ((List.replicate len d).map charges) (by
      intro a ha
      rw [List.map_replicate] at ha
      rw [List.eq_of_mem_replicate ha]; exact hp) c hw 1 (le_refl _) (ρ j)
    exact ⟨out, h⟩
  choose o ho using hr
  obtain ⟨sites, h1, h2, _⟩ := C48_linked (R := R) zdist zdist_isDist bond hbond (List.replicate len d)
    (by intro e; have := congrArg List.length e; simp at this; omega)
    (by intro x hx; rw [List.eq_of_mem_replicate hx]; exact hd) c 1 ρ fac ((List.range bond).map o)
    (BT.mapM_ok (by intro j _; exact ho j))
  refine ⟨sites, ?_, h2⟩
  unfold randomUniform
  rw [← List.map_replicate]
  exact h1

/-- Three spins with charges 1 and -1, total charge 1, bond dimension 2: the two strings of the draws `0` and `1`. -/
example : (List.range 2).mapM (fun j => generate zdist ([[(1, 1), (1, -1)], [(1, 1), (1, -1)], [(1, 1), (1, -1)]].map charges) 1 1
    (fun k => j * k)) = .ok [[1, 0, 0], [0, 1, 0]] := rfl

/-- The chain made from them. -/
example : ∃ sites : List (BT ℤ ℤ), randomUniform zdist 3 2 (physOf [(1, 1), (1, -1)]) 1 (fun j k => j * k) (fun _ _ _ _ => 1)
    = .ok sites ∧ sites.map (fun t => (t.shape, t.rule)) =
      [([[(1, 0)], [(1, 1), (1, -1)], [(1, 0), (1, 2)]], 1),
       ([[(1, 0), (1, -2)], [(1, 1), (1, -1)], [(2, 1)]], 0),
       ([[(2, -1)], [(1, 1), (1, -1)], [(1, 0)]], 0)] := ⟨_, rfl, rfl⟩

/-- A bond dimension of zero, or a uniform chain of no site: undefined behaviour. -/
example : randomUniform (R := ℤ) zdist 3 0 (physOf [(1, 1), (1, -1)]) 1 (fun _ _ => 0) (fun _ _ _ _ => 1) = Res.ub := rfl
example : randomUniform (R := ℤ) zdist 0 2 (physOf [(1, 1), (1, -1)]) 1 (fun _ _ => 0) (fun _ _ _ _ => 1)
    = Res.throw .invalidArgument := rfl
example : randomUniform (R := ℤ) zdist 0 2 (physOf [(1, 1), (1, -1)]) 0 (fun _ _ => 0) (fun _ _ _ _ => 1) = Res.ub := rfl

end RM
end QuantiT
