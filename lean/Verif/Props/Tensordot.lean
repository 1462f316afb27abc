import Verif.Lemmas.Contract2
import Verif.Props.BTensorOps
import Mathlib.Data.ZMod.Basic
/-
C23-C25: contraction.  C64: sum of all entries.
-/
set_option linter.unusedSectionVars false
namespace QuantiT.BT
open QuantiT.Spec
variable {G R : Type}

section tensordot
variable [AddCommMonoid G] [DecidableEq G] [Semiring R]

theorem opList_length (bl : FM (List Nat) (Blk R)) (pk pt : List Nat) (n : Nat) : (opList bl pk pt n).length = bl.length := by
  rw [opList, (sortKeys_perm _).length_eq, List.length_map]

theorem opList_nil {bl : FM (List Nat) (Blk R)} {pk pt : List Nat} {n : Nat} : opList bl pk pt n = [] ↔ bl = [] := by
  rw [← List.length_eq_zero_iff, opList_length, List.length_eq_zero_iff]

theorem gather_mem {α : Type} {p : List Nat} {l l' : List α} (h : gather p l = some l') : ∀ x ∈ l', x ∈ l := by
  intro x hx
  obtain ⟨i, hi, rfl⟩ := List.getElem_of_mem hx
  have := (List.forall₂_iff_get.mp (gather_iff.mp h)).2 i (by rw [← gather_length h]; exact hi) hi
  exact List.mem_of_getElem? this

/-- The matrices `tensordot` makes of its first and of its second operand. -/
def opLeft (a : BT G R) (da : List Nat) : FM (List Nat) (Blk R) :=
  opList a.blocks (outer da a.shape.length ++ da) (outer da a.shape.length ++ da) (a.shape.length - da.length)
@[inherit_doc opLeft] def opRight (b : BT G R) (db : List Nat) : FM (List Nat) (Blk R) :=
  opList b.blocks (outer db b.shape.length ++ db) (db ++ outer db b.shape.length) db.length

/-- The result of `tensordot`. -/
theorem tensordot_eq (a b : BT G R) (ha : Conserving a.shape a.rule a.blocks) (hb : Conserving b.shape b.rule b.blocks)
    (da db : List Nat) (hda : da.Nodup) (hdb : db.Nodup) (sa sb ca cb : Shape G)
    (hca : gather da a.shape = some ca) (hcb : gather db b.shape = some cb)
    (hsa : gather (others da a.shape.length) a.shape = some sa) (hsb : gather (others db b.shape.length) b.shape = some sb)
    (hc : Contractible ca cb)
    (hla : ∀ d ∈ a.shape, d.length < 2 ^ 63) (hlb : ∀ d ∈ b.shape, d.length < 2 ^ 63)
    (hne : a.blocks = [] ∨ (a.shape ≠ [] ∧ (b.blocks = [] ∨ b.shape ≠ [])))
    (fuel : Nat) (hf : a.blocks.length + b.blocks.length ≤ fuel) :
    tensordot fuel a b da db = some (.ok ⟨sa ++ sb, a.rule + b.rule, sortKeys (outAll sa sb (opLeft a da) (opRight b db) da.length)⟩) ∧
      Operand a da sa ca false (opLeft a da) ∧ Operand b db sb cb true (opRight b db) := by
  have hpa := outer_perm hda (gather_lt hca)
  have hpb := outer_perm hdb (gather_lt hcb)
  have hl : da.length = db.length := by rw [← gather_length hca, ← gather_length hcb, hc.length_eq]
  have hdl : ca.length = da.length := gather_length hca
  have o1 := operand ha hda hca hsa false
  have o2 := operand hb hdb hcb hsb true
  simp only [Bool.false_eq_true, if_false, if_true] at o1 o2
  have ea1 := permuteBl_eq ha hpa hpa (a.shape.length - da.length)
  have eb1 := permuteBl_eq hb hpb (List.perm_append_comm.trans hpb) db.length
  have hdrop : (db ++ outer db b.shape.length).drop da.length ++ (db ++ outer db b.shape.length).take da.length =
      outer db b.shape.length ++ db := by
    rw [hl, List.drop_left, List.take_left]
  rw [← hl] at eb1 o2
  have hout : tdotOut a b da db = .ok ⟨sa ++ sb, a.rule + b.rule, []⟩ := by
    simp only [tdotOut, outer_eq, hsa, hsb, orUb, bind, Except.bind]
  have hT2' : opRight b db = opList b.blocks (outer db b.shape.length ++ db) (db ++ outer db b.shape.length) da.length := by
    rw [opRight, hl]
  rw [hT2']
  unfold opLeft
  generalize hT1 : opList a.blocks (outer da a.shape.length ++ da) (outer da a.shape.length ++ da)
    (a.shape.length - da.length) = T1 at o1 ea1 ⊢
  generalize hT2 : opList b.blocks (outer db b.shape.length ++ db) (db ++ outer db b.shape.length) da.length = T2 at o2 eb1 ⊢
  have hb63 : ∀ n, n < 2 ^ 63 → n ≤ int64Max := by intro n hn; simp only [int64Max]; omega
  have hna : sa.length + ca.length = a.shape.length := by
    rw [gather_length hsa, gather_length hca]
    have := hpa.length_eq
    rwa [List.length_append, List.length_range] at this
  have hnb : sb.length + cb.length = b.shape.length := by
    rw [gather_length hsb, gather_length hcb]
    have := hpb.length_eq
    rwa [List.length_append, List.length_range] at this
  have hloops := loops_eq o1 o2 hc hdl (⟨sa ++ sb, a.rule + b.rule, []⟩ : BT G R) rfl
    (fun d hd => hb63 _ (hla d (gather_mem hsa d hd))) (fun d hd => hb63 _ (hla d (gather_mem hca d hd)))
    (fun d hd => hb63 _ (hlb d (gather_mem hsb d hd))) (fun d hd => hb63 _ (hlb d (gather_mem hcb d hd)))
    (by
      rw [← hT1, ← hT2, opList_nil, opList_nil, hna, hnb]
      simpa only [List.length_pos_iff] using hne)
    fuel (by rw [← hT1, ← hT2, opList_length, opList_length]; exact hf)
    (max (secCounts (sa ++ sb)).prod 1) (le_max_left _ _)
  refine ⟨?_, o1, o2⟩
  simp only [tensordot, tdotShape_eq hda hdb hca hcb hc, bind, Except.bind, ea1, hdrop, eb1, hout, hloops]

/-- C23, C24 for all operands that cannot loop for ever: for operands whose contracted dimensions fit section by section (equal sizes, opposite charges),
`tensordot` finishes; the result has the remaining dimensions of `a` then those of `b`, the sum of the rules and no
forbidden block, and its dense entries are those of the dense contraction.
`hne` excludes only a stored block of rank 0 (see `C25_fails`). -/
theorem C23_returns (a b : BT G R) (ha : Conserving a.shape a.rule a.blocks) (hb : Conserving b.shape b.rule b.blocks)
    (da db : List Nat) (hda : da.Nodup) (hdb : db.Nodup) (sa sb ca cb : Shape G)
    (hca : gather da a.shape = some ca) (hcb : gather db b.shape = some cb)
    (hsa : gather (others da a.shape.length) a.shape = some sa) (hsb : gather (others db b.shape.length) b.shape = some sb)
    (hc : Contractible ca cb)
    (hla : ∀ d ∈ a.shape, d.length < 2 ^ 63) (hlb : ∀ d ∈ b.shape, d.length < 2 ^ 63)
    (hne : a.blocks = [] ∨ (a.shape ≠ [] ∧ (b.blocks = [] ∨ b.shape ≠ [])))
    (fuel : Nat) (hf : a.blocks.length + b.blocks.length ≤ fuel) :
    ∃ r, tensordot fuel a b da db = some (.ok r) ∧ r.shape = sa ++ sb ∧ r.rule = a.rule + b.rule ∧
      Conserving r.shape r.rule r.blocks ∧
      ∀ ea eb, InRange ea (sa.map dimSize) → InRange eb (sb.map dimSize) →
        entry r.shape r.blocks (ea ++ eb) =
          ((indices (ca.map dimSize)).map fun c =>
            entry a.shape a.blocks (place da ea c) * entry b.shape b.blocks (place db eb c)).sum := by
  obtain ⟨h, o1, o2⟩ := tensordot_eq a b ha hb da db hda hdb sa sb ca cb hca hcb hsa hsb hc hla hlb hne fuel hf
  have hdl : ca.length = da.length := gather_length hca
  exact ⟨_, h, rfl, rfl, outAll_conserving o1 o2 hc hdl, fun ea eb hea heb => outAll_entry o1 o2 hc hdl hea heb⟩

theorem mem_opList {bl : FM (List Nat) (Blk R)} {pk pt : List Nat} {n : Nat} {k : List Nat} :
    (∃ M, (k, M) ∈ opList bl pk pt n) ↔ ∃ x ∈ bl, (gather pk x.1).getD [] = k := by
  unfold opList
  constructor
  · rintro ⟨M, h⟩
    rw [(sortKeys_perm _).mem_iff, List.mem_map] at h
    obtain ⟨x, hx, he⟩ := h
    exact ⟨x, hx, (Prod.mk.inj he).1⟩
  · rintro ⟨x, hx, he⟩
    refine ⟨opMat pt n x.2, ?_⟩
    rw [(sortKeys_perm _).mem_iff, List.mem_map]
    exact ⟨x, hx, by rw [he]⟩

/-- C23: which blocks the result stores.  One for every pair of stored blocks of the operands with the same indices along the
contracted dimensions, at their indices along the remaining ones; and no other. -/
theorem C23_stored (a b : BT G R) (ha : Conserving a.shape a.rule a.blocks) (hb : Conserving b.shape b.rule b.blocks)
    (da db : List Nat) (hda : da.Nodup) (hdb : db.Nodup) (sa sb ca cb : Shape G)
    (hca : gather da a.shape = some ca) (hcb : gather db b.shape = some cb)
    (hsa : gather (others da a.shape.length) a.shape = some sa) (hsb : gather (others db b.shape.length) b.shape = some sb)
    (hc : Contractible ca cb)
    (hla : ∀ d ∈ a.shape, d.length < 2 ^ 63) (hlb : ∀ d ∈ b.shape, d.length < 2 ^ 63)
    (hne : a.blocks = [] ∨ (a.shape ≠ [] ∧ (b.blocks = [] ∨ b.shape ≠ [])))
    (fuel : Nat) (hf : a.blocks.length + b.blocks.length ≤ fuel) :
    ∃ r, tensordot fuel a b da db = some (.ok r) ∧
      ∀ k, (∃ v, (k, v) ∈ r.blocks) ↔ ∃ x ∈ a.blocks, ∃ y ∈ b.blocks, gather da x.1 = gather db y.1 ∧
        ∃ kx ky, gather (others da a.shape.length) x.1 = some kx ∧ gather (others db b.shape.length) y.1 = some ky ∧ k = kx ++ ky := by
  obtain ⟨h, o1, o2⟩ := tensordot_eq a b ha hb da db hda hdb sa sb ca cb hca hcb hsa hsb hc hla hlb hne fuel hf
  have hdl : ca.length = da.length := gather_length hca
  have hl : da.length = db.length := by rw [← gather_length hca, ← gather_length hcb, hc.length_eq]
  refine ⟨_, h, fun k => ?_⟩
  have glen : ∀ {t : BT G R}, Conserving t.shape t.rule t.blocks → ∀ x ∈ t.blocks, x.1.length = t.shape.length := by
    intro t ht x hx
    obtain ⟨secs, h1, _⟩ := ht.block x.1 x.2 hx
    exact (sections_length h1).1
  have key : ∀ {t : BT G R} {d : List Nat} {c s : Shape G}, gather d t.shape = some c → gather (others d t.shape.length) t.shape = some s →
      Conserving t.shape t.rule t.blocks → ∀ x ∈ t.blocks, ∃ kx z, gather (others d t.shape.length) x.1 = some kx ∧ gather d x.1 = some z ∧
        z.length = d.length ∧ (gather (outer d t.shape.length ++ d) x.1).getD [] = kx ++ z := by
    intro t d c s hd hs ht x hx
    have hlx := glen ht x hx
    obtain ⟨kx, h1⟩ := gather_isSome (p := others d t.shape.length) (l := x.1) (by rw [hlx]; exact gather_lt hs)
    obtain ⟨z, h2⟩ := gather_isSome (p := d) (l := x.1) (by rw [hlx]; exact gather_lt hd)
    refine ⟨kx, z, h1, h2, gather_length h2, ?_⟩
    rw [outer_eq, gather_append h1 h2]
    rfl
  constructor
  · rintro ⟨v, hv⟩
    rw [(sortKeys_perm _).mem_iff] at hv
    obtain ⟨kx, ky, hxy⟩ := (mem_outAll o1 o2 hc hdl).1 hv
    have hk := outVal_key hxy
    simp only [outVal] at hxy
    split at hxy
    · cases hxy
    · rename_i hne'
      obtain ⟨p, hp⟩ := List.exists_mem_of_ne_nil _ hne'
      obtain ⟨z, sx, sy, sz, sz', m1, m2, _, _, s3, _⟩ := pair_facts o1 o2 hc hdl p hp
      obtain ⟨x, hx, ex⟩ := mem_opList.1 ⟨_, m1⟩
      obtain ⟨y, hy, ey⟩ := mem_opList.1 ⟨_, m2⟩
      obtain ⟨kx', z1, g1, g2, g3, g4⟩ := key hca hsa ha x hx
      obtain ⟨ky', z2, q1, q2, q3, q4⟩ := key hcb hsb hb y hy
      rw [g4] at ex
      rw [q4] at ey
      have hz : z.length = da.length := by rw [(sections_length s3).1, hdl]
      obtain ⟨rfl, rfl⟩ := List.append_inj' ex (by omega)
      obtain ⟨rfl, rfl⟩ := List.append_inj' ey (by omega)
      exact ⟨x, hx, y, hy, by rw [g2, q2], _, _, g1, q1, hk⟩
  · rintro ⟨x, hx, y, hy, hxy, kx, ky, h1, h2, rfl⟩
    obtain ⟨kx', z1, g1, g2, g3, g4⟩ := key hca hsa ha x hx
    obtain ⟨ky', z2, q1, q2, q3, q4⟩ := key hcb hsb hb y hy
    rw [h1] at g1; cases g1
    rw [h2] at q1; cases q1
    rw [g2, q2] at hxy; cases hxy
    obtain ⟨M1, m1⟩ := mem_opList.2 ⟨x, hx, g4⟩
    obtain ⟨M2, m2⟩ := mem_opList.2 ⟨y, hy, q4⟩
    have hne' : pairsList da.length (col da.length (opLeft a da) kx) (col da.length (opRight b db) ky) ≠ [] := by
      have hl1 : (kx ++ z1, M1) ∈ col da.length (opLeft a da) kx := by
        refine List.mem_filter.2 ⟨m1, ?_⟩
        simp [headKey_append g3]
      have hlook : lookup ((col da.length (opRight b db) ky).map fun e => (tailKey da.length e.1, e.2)) z1 = some M2 := by
        rw [lookup_col o2.sorted ?_ g3]
        · exact lookup_of_mem o2.sorted m2
        · rintro ⟨k, M⟩ he
          obtain ⟨x, z, sx, sz, rfl, _, s2, _⟩ := o2.mem k M he
          have := (sections_length s2).1
          have := hc.length_eq
          simp; omega
      intro h0
      have : (M1, M2) ∈ pairsList da.length (col da.length (opLeft a da) kx) (col da.length (opRight b db) ky) := by
        refine List.mem_filterMap.2 ⟨_, hl1, ?_⟩
        simp only [tailKey_append g3, hlook, Option.map_some]
      rw [h0] at this
      cases this
    refine ⟨outBlk (secSizes sa kx) (secSizes sb ky)
      (pairsList da.length (col da.length (opLeft a da) kx) (col da.length (opRight b db) ky)), ?_⟩
    rw [(sortKeys_perm _).mem_iff]
    refine (mem_outAll o1 o2 hc hdl).2 ⟨kx, ky, ?_⟩
    simp only [outVal]
    rw [if_neg hne']

example : ∃ r, tensordot 4 ex18 (inverseCvals ex18) [1] [1] = some (.ok r) ∧ ∃ k v, (k, v) ∈ r.blocks := by
  obtain ⟨r, h1, h2⟩ := C23_stored ex18 (inverseCvals ex18) ex18_conserving ((C27_inverse ex18).1 ex18_conserving)
    [1] [1] (by simp) (by simp) [[(2, 0), (1, 1)]] [[(2, 0), (1, -1)]] [[(1, 0), (2, -1)]] [[(1, 0), (2, 1)]]
    (by decide) (by decide) (by decide) (by decide) (by unfold Contractible; decide) (by decide) (by decide)
    (by simp [ex18, inverseCvals]) 4 (by decide)
  obtain ⟨x, hx⟩ : ∃ x, x ∈ ex18.blocks := List.exists_mem_of_ne_nil _ (by simp [ex18])
  obtain ⟨secs, h3, _⟩ := ex18_conserving.block x.1 x.2 hx
  have hl := (sections_length h3).1
  obtain ⟨kx, h4⟩ := gather_isSome (p := others [1] ex18.shape.length) (l := x.1) (by rw [hl]; decide)
  exact ⟨r, h1, kx ++ kx, (h2 _).2 ⟨x, hx, x, hx, rfl, kx, kx, h4, h4, rfl⟩⟩

example : ∃ r, tensordot 4 ex18 (inverseCvals ex18) [1] [1] = some (.ok r) ∧ r.shape.length = 2 := by
  obtain ⟨r, h1, h2, _⟩ := C23_returns ex18 (inverseCvals ex18) ex18_conserving ((C27_inverse ex18).1 ex18_conserving)
    [1] [1] (by simp) (by simp) [[(2, 0), (1, 1)]] [[(2, 0), (1, -1)]] [[(1, 0), (2, -1)]] [[(1, 0), (2, 1)]]
    (by decide) (by decide) (by decide) (by decide) (by unfold Contractible; decide) (by decide) (by decide)
    (by simp [ex18, inverseCvals]) 4 (by decide)
  exact ⟨r, h1, by rw [h2]; rfl⟩

/-- The section sizes of contracted dimensions are not compared: a 2 by 3 tensor and a 3 by 2 tensor are contracted
over both dimensions without an error, although no dense contraction of the two exists. -/
theorem C23_sizes_fails : ∃ a b : BT ℤ ℤ, Conserving a.shape a.rule a.blocks ∧ Conserving b.shape b.rule b.blocks ∧
    a.shape.map dimSize = [2, 3] ∧ b.shape.map dimSize = [3, 2] ∧ ∃ r, tensordot 2 a b [0, 1] [0, 1] = some (.ok r) := by
  refine ⟨⟨[[(2, 0)], [(3, 0)]], 0, [([0, 0], ⟨[2, 3], fun _ => 1⟩)]⟩, ⟨[[(3, 0)], [(2, 0)]], 0, [([0, 0], ⟨[3, 2], fun _ => 1⟩)]⟩,
    ⟨by unfold Sorted; decide, ?_⟩, ⟨by unfold Sorted; decide, ?_⟩, by decide, by decide, ?_⟩
  · intro k b h
    simp only [List.mem_singleton, Prod.mk.injEq] at h
    obtain ⟨rfl, rfl⟩ := h
    exact ⟨[(2, 0), (3, 0)], rfl, by decide, rfl⟩
  · intro k b h
    simp only [List.mem_singleton, Prod.mk.injEq] at h
    obtain ⟨rfl, rfl⟩ := h
    exact ⟨[(3, 0), (2, 0)], rfl, by decide, rfl⟩
  · exact ⟨_, rfl⟩

/-- C24: the rule, the outer dimensions and the absence of forbidden blocks, as in `C23_returns`, for any result:
whenever `tensordot` returns a tensor at all, its rule is the sum of the rules and its dimensions are the
uncontracted dimensions of `a` then those of `b`. -/
theorem C24_outer (fuel : Nat) (a b r : BT G R) (da db : List Nat) (h : tensordot fuel a b da db = some (.ok r)) :
    r.rule = a.rule + b.rule ∧ ∃ sa sb, gather (others da a.shape.length) a.shape = some sa ∧
      gather (others db b.shape.length) b.shape = some sb ∧ r.shape = sa ++ sb := by
  simp only [tensordot, bind, Except.bind] at h
  split at h
  · cases h
  rename_i t1 t2 out h0
  have hout : tdotOut a b da db = .ok out ∧ r.rule = out.rule ∧ r.shape = out.shape := by
    constructor
    · split at h0
      · cases h0
      split at h0
      · cases h0
      split at h0
      · cases h0
      split at h0
      · cases h0
      rename_i hh
      cases h0; exact hh
    · split at h
      · cases h
      · cases h
      · cases h; exact ⟨rfl, rfl⟩
  obtain ⟨h1, h2, h3⟩ := hout
  simp only [tdotOut, outer_eq, bind, Except.bind, orUb] at h1
  rcases e1 : gather (others da a.shape.length) a.shape with _ | sa
  · simp only [e1] at h1; cases h1
  · rcases e2 : gather (others db b.shape.length) b.shape with _ | sb
    · simp only [e1, e2] at h1; cases h1
    · simp only [e1, e2] at h1
      cases h1
      exact ⟨h2, sa, sb, rfl, rfl, h3⟩

/-- `checkPair` in range: accepted exactly when the sections pair up with opposite charges. -/
theorem checkPair_iff {a b : Shape G} {i j : Nat} {d d' : Dim G} (h1 : a[i]? = some d) (h2 : b[j]? = some d') :
    checkPair a b (i, j) = if List.Forall₂ (fun s s' => s.2 + s'.2 = 0) d d' then .ok () else Res.throw .runtimeError := by
  simp only [checkPair, h1, h2]
  by_cases hl : d.length = d'.length
  · rw [if_neg (not_not.mpr hl)]
    clear h1 h2
    have : ((d.zip d').all fun ss => decide (ss.1.2 + ss.2.2 = 0)) = true ↔ List.Forall₂ (fun s s' => s.2 + s'.2 = 0) d d' := by
      induction d generalizing d' with
      | nil => cases d' with
        | nil => simp
        | cons _ _ => simp at hl
      | cons s d ih => cases d' with
        | nil => simp at hl
        | cons s' d' =>
          simp only [List.zip_cons_cons, List.all_cons, Bool.and_eq_true, List.forall₂_cons]
          rw [ih (by simpa using hl)]; simp
    by_cases hx : List.Forall₂ (fun s s' => s.2 + s'.2 = 0) d d'
    · rw [if_pos hx, if_pos (this.mpr hx)]
    · rw [if_neg hx, if_neg (fun h => hx (this.mp h))]
  · rw [if_pos hl, if_neg (fun h => hl h.length_eq)]

theorem mapM_checkPair {a b : Shape G} : ∀ {da db : List Nat} {ca cb : Shape G}, gather da a = some ca → gather db b = some cb →
    da.length = db.length →
    (da.zip db).mapM (checkPair a b) = if List.Forall₂ (List.Forall₂ fun s s' => s.2 + s'.2 = 0) ca cb
      then .ok (da.map fun _ => ()) else Res.throw .runtimeError
  | [], [], ca, cb, h1, h2, _ => by
    rw [gather_nil] at h1 h2; cases h1; cases h2
    rw [if_pos .nil]; rfl
  | i :: da, j :: db, ca, cb, h1, h2, hl => by
    obtain ⟨d, ca, e1, g1, rfl⟩ := gather_cons.mp h1
    obtain ⟨d', cb, e2, g2, rfl⟩ := gather_cons.mp h2
    have ih := mapM_checkPair g1 g2 (by simpa using hl)
    rw [List.zip_cons_cons, List.mapM_cons, checkPair_iff e1 e2, ih]
    by_cases hx : List.Forall₂ (fun s s' => s.2 + s'.2 = 0) d d'
    · by_cases hy : List.Forall₂ (List.Forall₂ fun s s' => s.2 + s'.2 = 0) ca cb
      · rw [if_pos hx, if_pos hy, if_pos (.cons hx hy)]; rfl
      · rw [if_pos hx, if_neg hy, if_neg (fun h => hy (by cases h; assumption))]; rfl
    · rw [if_neg hx, if_neg (c := List.Forall₂ (List.Forall₂ fun s s' => s.2 + s'.2 = 0) (d :: ca) (d' :: cb))
        (fun h => hx (List.forall₂_cons.mp h).1)]
      rfl

/-- C24: a contraction over dimensions whose charges are not mutual inverses section by section (this includes
lists of different lengths and dimensions with different numbers of sections) throws. -/
theorem C24_reject_charges (fuel : Nat) (a b : BT G R) (da db : List Nat) (ca cb : Shape G)
    (hca : gather da a.shape = some ca) (hcb : gather db b.shape = some cb)
    (h : ¬ List.Forall₂ (List.Forall₂ fun s s' => s.2 + s'.2 = 0) ca cb) :
    tensordot fuel a b da db = some (.error (.throw .runtimeError)) := by
  have : tdotShape a.shape b.shape da db = Res.throw .runtimeError := by
    simp only [tdotShape]
    by_cases hl : da.length = db.length
    · rw [if_neg (not_not.mpr hl), mapM_checkPair hca hcb hl, if_neg h]; rfl
    · rw [if_pos hl]
  simp only [tensordot, this]; rfl

example : tensordot 4 ex18 ex18 [1] [1] = some (.error (.throw .runtimeError)) :=
  C24_reject_charges 4 ex18 ex18 [1] [1] [[(1, 0), (2, -1)]] [[(1, 0), (2, -1)]] (by decide) (by decide) (by decide)

/-- C24: so does a repeated dimension. -/
theorem C24_reject_repeated (fuel : Nat) (a b : BT G R) (da db : List Nat) (ca cb : Shape G)
    (hca : gather da a.shape = some ca) (hcb : gather db b.shape = some cb) (h : ¬ da.Nodup ∨ ¬ db.Nodup) :
    tensordot fuel a b da db = some (.error (.throw .runtimeError)) := by
  have : tdotShape a.shape b.shape da db = Res.throw .runtimeError := by
    simp only [tdotShape]
    by_cases hl : da.length = db.length
    · rw [if_neg (not_not.mpr hl), mapM_checkPair hca hcb hl]
      split
      · simp only [bind, Except.bind]
        by_cases h1 : da.Nodup
        · rw [if_neg (not_not.mpr h1), if_pos (h.resolve_left (not_not.mpr h1))]
        · rw [if_pos h1]
      · rfl
    · rw [if_pos hl]
  simp only [tensordot, this]; rfl

example : gather [1, 1] ex18.shape = some [[(1, 0), (2, -1)], [(1, 0), (2, -1)]] ∧ ¬ [1, 1].Nodup := by decide

/-- A dimension beyond the rank is not detected: the section list is read out of bounds. -/
theorem C24_range_fails (fuel : Nat) (a b : BT G R) (i j : Nat) (h : a.shape.length ≤ i) :
    tensordot fuel a b [i] [j] = some Res.ub := by
  simp [tensordot, tdotShape, checkPair, h, bind, Except.bind, Res.ub]

theorem innerLoop_mono {dl cap : Nat} {out : BT G R} {ka : List Nat} {as : FM (List Nat) (Blk R)} {r} :
    ∀ (fuel fuel' : Nat) (t acc : FM (List Nat) (Blk R)), fuel ≤ fuel' → innerLoop dl out cap ka as fuel t acc = some r →
    innerLoop dl out cap ka as fuel' t acc = some r
  | fuel, fuel', [], acc, _, h => by
    cases fuel <;> cases fuel' <;> simpa [innerLoop] using h
  | 0, fuel', b :: bs, acc, _, h => by
    by_cases hc : acc.length = cap
    · cases fuel' <;> simpa [innerLoop, hc] using h
    · simp [innerLoop, hc] at h
  | fuel + 1, 0, b :: bs, acc, hf, _ => by omega
  | fuel + 1, fuel' + 1, b :: bs, acc, hf, h => by
    by_cases hc : acc.length = cap
    · simpa [innerLoop, hc] using h
    · simp only [innerLoop, hc, if_false] at h ⊢
      split at h
      · rename_i acc' he
        exact innerLoop_mono fuel fuel' _ _ (by omega) h
      · exact h

theorem outerLoop_mono {dl cap : Nat} {out : BT G R} {t2 : FM (List Nat) (Blk R)} {r} :
    ∀ (fuel fuel' : Nat) (t acc : FM (List Nat) (Blk R)), fuel ≤ fuel' → outerLoop dl out cap t2 fuel t acc = some r →
    outerLoop dl out cap t2 fuel' t acc = some r
  | fuel, fuel', [], acc, _, h => by
    cases fuel <;> cases fuel' <;> simpa [outerLoop] using h
  | 0, fuel', b :: bs, acc, _, h => by
    by_cases hc : acc.length = cap
    · cases fuel' <;> simpa [outerLoop, hc] using h
    · simp [outerLoop, hc] at h
  | fuel + 1, 0, b :: bs, acc, hf, _ => by omega
  | fuel + 1, fuel' + 1, b :: bs, acc, hf, h => by
    by_cases hc : acc.length = cap
    · simpa [outerLoop, hc] using h
    · simp only [outerLoop, hc, if_false] at h ⊢
      split at h
      · rename_i acc' he
        rw [innerLoop_mono fuel fuel' _ _ (by omega) he]
        exact outerLoop_mono fuel fuel' _ _ (by omega) h
      · rename_i hx
        rw [innerLoop_mono fuel fuel' _ _ (by omega) h]
        rcases r with e | acc'
        · rfl
        · exact absurd h (hx acc')

theorem tensordot_mono {fuel fuel' : Nat} (hf : fuel ≤ fuel') {a b : BT G R} {da db : List Nat} {r}
    (h : tensordot fuel a b da db = some r) : tensordot fuel' a b da db = some r := by
  simp only [tensordot] at h ⊢
  split at h
  · exact h
  · split at h
    · cases h
    · rename_i e he; rw [outerLoop_mono fuel fuel' _ _ hf he]; exact h
    · rename_i l he; rw [outerLoop_mono fuel fuel' _ _ hf he]; exact h

theorem gather_of_checkPair {a b : Shape G} : ∀ {da db : List Nat} {u}, da.length = db.length →
    (da.zip db).mapM (checkPair a b) = .ok u → ∃ ca cb, gather da a = some ca ∧ gather db b = some cb
  | [], [], _, _, _ => ⟨[], [], rfl, rfl⟩
  | i :: da, j :: db, u, hl, h => by
    rw [List.zip_cons_cons, List.mapM_cons] at h
    rcases h1 : a[i]? with _ | d
    · simp [checkPair, h1, bind, Except.bind, Res.ub] at h
    rcases h2 : b[j]? with _ | d'
    · simp [checkPair, h1, h2, bind, Except.bind, Res.ub] at h
    rcases hm : (da.zip db).mapM (checkPair a b) with e | u'
    · rw [hm, checkPair_iff h1 h2] at h
      split at h <;> simp [bind, Except.bind, Res.throw] at h
    · obtain ⟨ca, cb, g1, g2⟩ := gather_of_checkPair (by simpa using hl) hm
      exact ⟨d :: ca, d' :: cb, gather_cons.mpr ⟨d, ca, h1, g1, rfl⟩, gather_cons.mpr ⟨d', cb, h2, g2, rfl⟩⟩

theorem tdotShape_ok {a b : Shape G} {da db : List Nat} {p} (h : tdotShape a b da db = .ok p) :
    da.Nodup ∧ db.Nodup ∧ da.length = db.length ∧ p = (outer da a.length ++ da, db ++ outer db b.length) ∧
    ∃ ca cb, gather da a = some ca ∧ gather db b = some cb := by
  simp only [tdotShape] at h
  by_cases hl : da.length = db.length
  · rw [if_neg (not_not.mpr hl)] at h
    rcases hm : (da.zip db).mapM (checkPair a b) with e | u
    · rw [hm] at h; cases h
    · rw [hm] at h
      simp only [bind, Except.bind] at h
      by_cases h1 : da.Nodup
      · by_cases h2 : db.Nodup
        · rw [if_neg (not_not.mpr h1), if_neg (not_not.mpr h2)] at h
          cases h
          exact ⟨h1, h2, hl, rfl, gather_of_checkPair hl hm⟩
        · rw [if_neg (not_not.mpr h1), if_pos h2] at h; cases h
      · rw [if_pos h1] at h; cases h
  · rw [if_pos hl] at h; cases h

/-- C25, where it holds: with conserving operands, `tensordot` returns or throws (`some r`, the same however long
one waits), for every contraction list whatever, unless a rank 0 operand holds a block. -/
theorem C25_terminates_partial (a b : BT G R) (ha : Conserving a.shape a.rule a.blocks) (hb : Conserving b.shape b.rule b.blocks)
    (da db : List Nat) (hla : ∀ d ∈ a.shape, d.length < 2 ^ 63) (hlb : ∀ d ∈ b.shape, d.length < 2 ^ 63)
    (hne : a.blocks = [] ∨ (a.shape ≠ [] ∧ (b.blocks = [] ∨ b.shape ≠ []))) :
    ∃ r, ∀ fuel, a.blocks.length + b.blocks.length ≤ fuel → tensordot fuel a b da db = some r := by
  suffices h : tensordot (a.blocks.length + b.blocks.length) a b da db ≠ none by
    obtain ⟨r, hr⟩ := Option.ne_none_iff_exists'.mp h
    exact ⟨r, fun fuel hf => tensordot_mono hf hr⟩
  have hb63 : ∀ n, n < 2 ^ 63 → n ≤ int64Max := by intro n hn; simp only [int64Max]; omega
  rcases hsh : tdotShape a.shape b.shape da db with e | p
  · simp [tensordot, hsh, bind, Except.bind]
  obtain ⟨hda, hdb, hl, rfl, ca, cb, hca, hcb⟩ := tdotShape_ok hsh
  have hpa := outer_perm hda (gather_lt hca)
  have hpb := outer_perm hdb (gather_lt hcb)
  obtain ⟨sa, hsa⟩ := gather_isSome (l := a.shape) (p := others da a.shape.length)
    (fun j hj => perm_range_lt hpa j (List.mem_append_left _ hj))
  obtain ⟨sb, hsb⟩ := gather_isSome (l := b.shape) (p := others db b.shape.length)
    (fun j hj => perm_range_lt hpb j (List.mem_append_left _ hj))
  have o1 := operand ha hda hca hsa false
  have o2 := operand hb hdb hcb hsb true
  simp only [Bool.false_eq_true, if_false, if_true] at o1 o2
  have ea1 := permuteBl_eq ha hpa hpa (a.shape.length - da.length)
  have eb1 := permuteBl_eq hb hpb (List.perm_append_comm.trans hpb) db.length
  have hdrop : (db ++ outer db b.shape.length).drop da.length ++ (db ++ outer db b.shape.length).take da.length =
      outer db b.shape.length ++ db := by
    rw [hl, List.drop_left, List.take_left]
  rw [← hl] at eb1 o2
  have hout : tdotOut a b da db = .ok ⟨sa ++ sb, a.rule + b.rule, []⟩ := by
    simp only [tdotOut, outer_eq, hsa, hsb, orUb, bind, Except.bind]
  generalize hT1 : opList a.blocks (outer da a.shape.length ++ da) (outer da a.shape.length ++ da)
    (a.shape.length - da.length) = T1 at o1 ea1
  generalize hT2 : opList b.blocks (outer db b.shape.length ++ db) (db ++ outer db b.shape.length) da.length = T2 at o2 eb1
  have hna : sa.length + ca.length = a.shape.length := by
    rw [gather_length hsa, gather_length hca]
    have := hpa.length_eq
    rwa [List.length_append, List.length_range] at this
  have hnb : sb.length + cb.length = b.shape.length := by
    rw [gather_length hsb, gather_length hcb]
    have := hpb.length_eq
    rwa [List.length_append, List.length_range] at this
  have hca' := gather_length hca
  have hcb' := gather_length hcb
  have hend : outerLoop da.length (⟨sa ++ sb, a.rule + b.rule, []⟩ : BT G R) (max (secCounts (sa ++ sb)).prod 1) T2
      (a.blocks.length + b.blocks.length) T1 [] ≠ none := by
    rcases hne with hne | ⟨hne, hne2⟩
    · have : T1 = [] := by rw [← hT1, opList_nil]; exact hne
      subst this
      cases a.blocks.length + b.blocks.length <;> simp [outerLoop]
    · have hk1 := o1.keyed (fun d hd => hb63 _ (hla d (gather_mem hsa d hd))) (fun d hd => hb63 _ (hla d (gather_mem hca d hd)))
      have hk2 := o2.keyed (fun d hd => hb63 _ (hlb d (gather_mem hsb d hd))) (fun d hd => hb63 _ (hlb d (gather_mem hcb d hd)))
      have hp1 := List.length_pos_iff.mpr hne
      have hlen : T1.length + T2.length ≤ a.blocks.length + b.blocks.length := by
        rw [← hT1, ← hT2, opList_length, opList_length]
      by_cases h2 : T2 = []
      · subst h2
        refine outerLoop_ends (n := sa.length + ca.length) (n2 := da.length + 1) ⟨hk2.sorted, ?_, ?_⟩ (by omega) (by omega)
          (by omega) (by omega) _ _ _ hk1 hlen
        · intro e he; cases he
        · intro e he; cases he
      · have : b.blocks ≠ [] := fun h => h2 (by rw [← hT2, opList_nil]; exact h)
        have hp2 := List.length_pos_iff.mpr (hne2.resolve_left this)
        exact outerLoop_ends hk2 (by omega) (by omega) (by omega) (by omega) _ _ _ hk1 hlen
  simp only [tensordot, hsh, bind, Except.bind, ea1, hdrop, eb1, hout]
  split
  · rename_i h; exact absurd h hend
  · simp
  · simp

theorem innerLoop_empty {dl cap : Nat} {out : BT G R} {ka : List Nat} : ∀ (fuel : Nat) (t acc : FM (List Nat) (Blk R)),
    innerLoop dl out cap ka [] fuel t acc = none ∨ innerLoop dl out cap ka [] fuel t acc = some (.ok acc)
  | fuel, [], acc => by cases fuel <;> simp [innerLoop]
  | 0, b :: bs, acc => by
    by_cases hc : acc.length = cap <;> simp [innerLoop, hc]
  | fuel + 1, b :: bs, acc => by
    by_cases hc : acc.length = cap
    · simp [innerLoop, hc]
    · simp only [innerLoop, hc, if_false]
      have : ∀ c, pairStep dl out ka b.1 [] c acc = .ok acc := by
        intro c
        simp only [pairStep]
        have : findMatch dl (([] : FM (List Nat) (Blk R)).length + c.length) ([] : FM (List Nat) (Blk R)) c = ([], []) := by
          generalize ([] : FM (List Nat) (Blk R)).length + c.length = n
          cases n <;> simp [findMatch]
        rw [this]
      rw [this]
      exact innerLoop_empty fuel _ acc

/-- C25 fails for rank 0: multiplying a rank 0 tensor that holds its block with any conserving tensor never
returns; nor does it on the right of a tensor that holds a block. -/
theorem C25_fails (a b : BT G R) (ha : a.shape = []) (hca : Conserving a.shape a.rule a.blocks) (hba : a.blocks ≠ [])
    (hb : Conserving b.shape b.rule b.blocks) :
    (∀ fuel, tensordot fuel a b [] [] = none) ∧ (b.blocks ≠ [] → ∀ fuel, tensordot fuel b a [] [] = none) := by
  have prep : ∀ (a b : BT G R), Conserving a.shape a.rule a.blocks → Conserving b.shape b.rule b.blocks → ∃ T1 T2 out,
      T1.length = a.blocks.length ∧ T2.length = b.blocks.length ∧ (a.shape = [] → ∀ e ∈ T1, e.1 = []) ∧
      (b.shape = [] → ∀ e ∈ T2, e.1 = []) ∧ ∀ fuel, tensordot fuel a b [] [] =
        match outerLoop 0 out (max (secCounts out.shape).prod 1) T2 fuel T1 [] with
        | none => none
        | some (.error e) => some (.error e)
        | some (.ok l) => some (.ok { out with blocks := sortKeys l }) := by
    intro a b ha hb
    have hsh := tdotShape_eq (a := a.shape) (b := b.shape) (da := []) (db := []) (c := []) (c' := []) (by simp) (by simp) rfl rfl .nil
    have hpa := outer_perm (d := []) (n := a.shape.length) (by simp) (by simp)
    have hpb := outer_perm (d := []) (n := b.shape.length) (by simp) (by simp)
    obtain ⟨sa, hsa⟩ := gather_isSome (l := a.shape) (p := others [] a.shape.length)
      (fun j hj => perm_range_lt hpa j (List.mem_append_left _ hj))
    obtain ⟨sb, hsb⟩ := gather_isSome (l := b.shape) (p := others [] b.shape.length)
      (fun j hj => perm_range_lt hpb j (List.mem_append_left _ hj))
    have ea1 := permuteBl_eq ha hpa hpa a.shape.length
    have eb1 := permuteBl_eq hb hpb (List.perm_append_comm.trans hpb) 0
    have o1 := operand ha (d := []) (by simp) rfl hsa false
    have o2 := operand hb (d := []) (by simp) rfl hsb true
    have hout : tdotOut a b [] [] = .ok ⟨sa ++ sb, a.rule + b.rule, []⟩ := by
      simp only [tdotOut, outer_eq, hsa, hsb, orUb, bind, Except.bind]
    refine ⟨opList a.blocks (outer [] a.shape.length ++ []) (outer [] a.shape.length ++ []) a.shape.length,
      opList b.blocks (outer [] b.shape.length ++ []) ([] ++ outer [] b.shape.length) 0, ⟨sa ++ sb, a.rule + b.rule, []⟩,
      opList_length _ _ _ _, opList_length _ _ _ _, ?_, ?_, fun fuel => ?_⟩
    rotate_left 2
    · have hdrop : ([] ++ outer [] b.shape.length).drop 0 ++ ([] ++ outer [] b.shape.length).take 0 =
          outer [] b.shape.length ++ [] := by simp
      simp only [tensordot, hsh, bind, Except.bind, List.length_nil, Nat.sub_zero, ea1, hdrop, eb1, hout]
      generalize outerLoop (G := G) (R := R) 0 _ _ _ fuel _ _ = q
      rcases q with _ | _ | _ <;> rfl
    · intro h e he
      have := o1.mem e.1 e.2 (by simpa using he)
      obtain ⟨x, z, sx, sz, h1, h2, h3, _⟩ := this
      have l1 := (sections_length h2).1
      have l2 := (sections_length h3).1
      rw [gather_length hsa, h] at l1
      simp [others] at l1 l2
      simp [h1, l1, l2]
    · intro h e he
      have := o2.mem e.1 e.2 (by simpa using he)
      obtain ⟨x, z, sx, sz, h1, h2, h3, _⟩ := this
      have l1 := (sections_length h2).1
      have l2 := (sections_length h3).1
      rw [gather_length hsb, h] at l1
      simp [others] at l1 l2
      simp [h1, l1, l2]
  constructor
  · obtain ⟨T1, T2, out, l1, l2, k1, k2, hall⟩ := prep a b hca hb
    intro fuel
    rw [hall]
    have k1 := k1 ha
    obtain ⟨e, T1, rfl⟩ : ∃ e T, T1 = e :: T := by
      cases T1 with
      | nil => exact absurd (List.length_eq_zero_iff.mp l1.symm) hba
      | cons e T => exact ⟨e, T, rfl⟩
    have he := k1 e (by simp)
    have hend : ∀ fuel, outerLoop 0 out (max (secCounts out.shape).prod 1) T2 fuel (e :: T1) [] = none := by
      intro fuel
      have hcap : ¬ ([] : FM (List Nat) (Blk R)).length = max (secCounts out.shape).prod 1 := by
        simp only [List.length_nil]; omega
      induction fuel with
      | zero => simp only [outerLoop]; rw [if_neg hcap]
      | succ fuel ih =>
        simp only [outerLoop]
        rw [if_neg hcap]
        have hlt : ¬ e.1 < nextIndex 0 e.1 := by simp [he, nextIndex]
        simp only [List.takeWhile_cons, List.dropWhile_cons, hlt, decide_false, Bool.false_eq_true, if_false]
        rcases innerLoop_empty (dl := 0) (out := out) (cap := max (secCounts out.shape).prod 1) (ka := e.1) fuel T2 [] with h | h
        · rw [h]
        · rw [h]; exact ih
    rw [hend]
  · intro hbb
    obtain ⟨T1, T2, out, l1, l2, k1, k2, hall⟩ := prep b a hb hca
    intro fuel
    rw [hall]
    have k2 := k2 ha
    obtain ⟨e, T2, rfl⟩ : ∃ e T, T2 = e :: T := by
      cases T2 with
      | nil => exact absurd (List.length_eq_zero_iff.mp l2.symm) hba
      | cons e T => exact ⟨e, T, rfl⟩
    obtain ⟨e', T1, rfl⟩ : ∃ e T, T1 = e :: T := by
      cases T1 with
      | nil => exact absurd (List.length_eq_zero_iff.mp l1.symm) hbb
      | cons e T => exact ⟨e, T, rfl⟩
    have he := k2 e (by simp)
    have hcap : ¬ ([] : FM (List Nat) (Blk R)).length = max (secCounts out.shape).prod 1 := by
      simp only [List.length_nil]; omega
    have hin : ∀ fuel c, innerLoop 0 out (max (secCounts out.shape).prod 1) e'.1 c fuel (e :: T2) [] = none := by
      intro fuel c
      induction fuel with
      | zero => simp only [innerLoop]; rw [if_neg hcap]
      | succ fuel ih =>
        simp only [innerLoop]
        rw [if_neg hcap]
        have hlt : ¬ e.1 < nextIndex 0 e.1 := by simp [he, nextIndex]
        simp only [List.takeWhile_cons, List.dropWhile_cons, hlt, decide_false, Bool.false_eq_true, if_false]
        have : pairStep 0 out e'.1 e.1 c [] ([] : FM (List Nat) (Blk R)) = .ok [] := by
          simp only [pairStep]
          have : findMatch 0 (c.length + ([] : FM (List Nat) (Blk R)).length) c ([] : FM (List Nat) (Blk R)) = ([], []) := by
            generalize c.length + ([] : FM (List Nat) (Blk R)).length = n
            cases n <;> cases c <;> simp [findMatch]
          rw [this]
        rw [this]; exact ih
    have hend : outerLoop 0 out (max (secCounts out.shape).prod 1) (e :: T2) fuel (e' :: T1) [] = none := by
      cases fuel with
      | zero => simp only [outerLoop]; rw [if_neg hcap]
      | succ fuel =>
        simp only [outerLoop]
        rw [if_neg hcap, hin]
    rw [hend]

example : Conserving (sum ex18).shape (sum ex18).rule (sum ex18).blocks ∧ (sum ex18).shape = [] ∧ (sum ex18).blocks ≠ [] := by
  refine ⟨⟨by unfold Sorted; decide, ?_⟩, rfl, by simp [sum]⟩
  intro k b h
  simp only [sum, List.mem_singleton, Prod.mk.injEq] at h
  obtain ⟨rfl, rfl⟩ := h
  exact ⟨[], rfl, by decide, rfl⟩

/-- C23, C24: whenever `tensordot` finishes on operands whose contracted dimensions fit section by section (equal
sizes, opposite charges), it returns a tensor with the remaining dimensions of `a` then those of `b`, the sum of the
rules and no forbidden block, and its dense entries are those of the dense contraction.  `C23_returns` and
`C25_fails` tell when it finishes. -/
theorem C23_tensordot (a b : BT G R) (ha : Conserving a.shape a.rule a.blocks) (hb : Conserving b.shape b.rule b.blocks)
    (da db : List Nat) (hda : da.Nodup) (hdb : db.Nodup) (sa sb ca cb : Shape G)
    (hca : gather da a.shape = some ca) (hcb : gather db b.shape = some cb)
    (hsa : gather (others da a.shape.length) a.shape = some sa) (hsb : gather (others db b.shape.length) b.shape = some sb)
    (hc : Contractible ca cb)
    (hla : ∀ d ∈ a.shape, d.length < 2 ^ 63) (hlb : ∀ d ∈ b.shape, d.length < 2 ^ 63)
    (fuel : Nat) (res : Res (BT G R)) (hres : tensordot fuel a b da db = some res) :
    ∃ r, res = .ok r ∧ r.shape = sa ++ sb ∧ r.rule = a.rule + b.rule ∧
      Conserving r.shape r.rule r.blocks ∧
      ∀ ea eb, InRange ea (sa.map dimSize) → InRange eb (sb.map dimSize) →
        entry r.shape r.blocks (ea ++ eb) =
          ((indices (ca.map dimSize)).map fun c =>
            entry a.shape a.blocks (place da ea c) * entry b.shape b.blocks (place db eb c)).sum := by
  have hl : da.length = db.length := by rw [← gather_length hca, ← gather_length hcb, hc.length_eq]
  by_cases hne : a.blocks = [] ∨ (a.shape ≠ [] ∧ (b.blocks = [] ∨ b.shape ≠ []))
  · obtain ⟨r, h1, h2⟩ := C23_returns a b ha hb da db hda hdb sa sb ca cb hca hcb hsa hsb hc hla hlb hne
      (fuel + (a.blocks.length + b.blocks.length)) (by omega)
    rw [tensordot_mono (Nat.le_add_right _ _) hres] at h1
    cases h1
    exact ⟨r, rfl, h2⟩
  · exfalso
    have hnil : ∀ {d : List Nat} {t c : Shape G}, t = [] → gather d t = some c → d = [] := by
      intro d t c ht hg
      rcases d with _ | ⟨j, d⟩
      · rfl
      · have := gather_lt hg j (by simp)
        simp [ht] at this
    push Not at hne
    obtain ⟨h1, h2⟩ := hne
    by_cases h3 : a.shape = []
    · have hda' := hnil h3 hca
      have hdb' : db = [] := List.length_eq_zero_iff.mp (by rw [← hl, hda']; rfl)
      subst hda'; subst hdb'
      rw [(C25_fails a b h3 ha h1 hb).1 fuel] at hres
      cases hres
    · obtain ⟨h4, h5⟩ := h2 h3
      have hdb' := hnil h5 hcb
      have hda' : da = [] := List.length_eq_zero_iff.mp (by rw [hl, hdb']; rfl)
      subst hda'; subst hdb'
      rw [(C25_fails b a h5 hb h4 ha).2 h1 fuel] at hres
      cases hres

end tensordot

/-! ### C64 -/

section sum
variable [AddCommMonoid G] [DecidableEq G] [Semiring R]

/-- `sum()` returns a rank 0 tensor with one block whose value is the sum of all entries of the dense tensor. -/
theorem C64_sum_partial (t : BT G R) (hc : Conserving t.shape t.rule t.blocks) :
    (sum t).shape = [] ∧ entry (sum t).shape (sum t).blocks [] =
      ((indices (t.shape.map dimSize)).map fun e => entry t.shape t.blocks e).sum ∧
    (t.rule = 0 → Conserving (sum t).shape (sum t).rule (sum t).blocks) := by
  refine ⟨rfl, ?_, ?_⟩
  · have hl : entry (sum t).shape (sum t).blocks [] = (t.blocks.map fun kb => ((allIdx kb.2.dims).map kb.2.f).sum).sum := by
      simp only [sum, entry, locateAll, lookup_cons, if_true]
    rw [hl, indices_eq]
    generalize hF : (fun q : Option (List Nat × List Nat) => match q with
      | none => (0 : R)
      | some p => match lookup t.blocks p.1 with | none => 0 | some b => b.f p.2) = F
    have hrw : ∀ e ∈ allIdx (t.shape.map dimSize), entry t.shape t.blocks e = F (locateAll t.shape e) := by
      intro e _; rw [← hF]; rfl
    rw [sum_congr' hrw, sum_locateAll]
    have hz : ∀ z ∈ allIdx (secCounts t.shape), ((allIdx (secSizes t.shape z)).map fun o => F (some (z, o))).sum =
        match lookup t.blocks z with
        | some b => ((allIdx b.dims).map b.f).sum
        | none => 0 := by
      intro z _
      rw [← hF]
      rcases hb : lookup t.blocks z with _ | b
      · simp only [hb]; exact sum_map_zero' _
      · simp only [hb]
        obtain ⟨secs, h1, h2, h3⟩ := hc.block z b (mem_of_lookup hb)
        rw [secSizes_eq h1, h3]
    rw [sum_congr' hz]
    refine Eq.trans (sum_lookup (A := t.blocks) (allIdx_nodup (secCounts t.shape))
      (fun z b => ((allIdx b.dims).map b.f).sum) ?_ ?_).symm (sum_congr' fun z _ => ?_)
    rotate_left 2
    · generalize lookup t.blocks z = q
      cases q <;> rfl
    · rw [List.Nodup, List.pairwise_map]
      exact List.Pairwise.imp (fun h => ne_of_lt h) hc.sorted
    · rintro ⟨k, b⟩ he
      obtain ⟨secs, h1, _⟩ := hc.block k b he
      exact mem_allIdx.mpr (sections_inRange h1)
  · intro hr
    refine ⟨?_, ?_⟩
    · simp [sum, Sorted]
    · intro k b h
      simp only [sum, List.mem_singleton, Prod.mk.injEq] at h
      obtain ⟨rfl, rfl⟩ := h
      exact ⟨[], rfl, by simp [sum, charge, hr], rfl⟩

example : entry (sum ex18).shape (sum ex18).blocks [] = ((indices [3, 3]).map fun e => entry ex18.shape ex18.blocks e).sum :=
  (C64_sum_partial ex18 ex18_conserving).2.1

/-- With a rule that is not neutral the result is not a conserving tensor. -/
theorem C64_sum_fails (t : BT G R) (h : t.rule ≠ 0) : ¬ Conserving (sum t).shape (sum t).rule (sum t).blocks := by
  intro hc
  obtain ⟨secs, h1, h2, _⟩ := hc.block [] _ (by simp only [sum]; exact List.mem_singleton.mpr rfl)
  simp only [sum, sections] at h1
  cases h1
  exact h h2.symm

example : ({ ex18 with rule := 1 } : BT ℤ ℤ).rule ≠ 0 := by decide

end sum

end QuantiT.BT
