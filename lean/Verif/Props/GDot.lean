import Verif.Props.DenseTools
/-
C59: the generalised contraction of dense tensors when contracted dimensions of size one are broadcast.
-/
namespace QuantiT
open Spec BT
variable {R : Type}

/-! ### Specification: contraction with broadcasting -/

/-- Two contracted sizes fit when they are equal or one of them is one. -/
def Fits (ca cb : List Nat) : Prop := List.Forall₂ (fun m n => m = n ∨ m = 1 ∨ n = 1) ca cb

/-- The common sizes of two lists of sizes that fit: where one is one, the other. -/
def bcast (ca cb : List Nat) : List Nat := List.zipWith (fun m n => if m = 1 then n else m) ca cb

/-- The place read in dimensions of sizes `ns` for the common index `z`: a dimension of size one is read at 0. -/
def clip (ns z : List Nat) : List Nat := List.zipWith (fun n k => if n = 1 then 0 else k) ns z

/-- The contraction of two dense tensors with contracted dimensions of sizes `ca`, `cb` that fit: a dimension of size
one behaves like one of the other size with equal entries. -/
def denseDotB [Semiring R] (a b : Blk R) (da db ca cb : List Nat) (oa ob : List Nat) : R :=
  ((indices (bcast ca cb)).map fun z => a.f (place da oa (clip ca z)) * b.f (place db ob (clip cb z))).sum

/-! ### The sums of the loop -/

/-- What remains of the contracted sizes after the loop. -/
def reduced (ca cb : List Nat) : List Nat := List.zipWith (fun m n => if m = 1 ∨ n = 1 then 1 else m) ca cb

/-- The summations done on the first tensor, from position `p` on. -/
def red1 [Semiring R] : Nat → List Nat → List Nat → (List Nat → R) → List Nat → R
  | p, m :: ca, n :: cb, F =>
    red1 (p + 1) ca cb (if n = 1 then fun z => ((List.range m).map fun j => F (z.set p j)).sum else F)
  | _, _, _, F => F

/-- The summations done on the second tensor, from position `p` on. -/
def red2 [Semiring R] : Nat → List Nat → List Nat → (List Nat → R) → List Nat → R
  | p, m :: ca, n :: cb, G =>
    red2 (p + 1) ca cb (if n ≠ 1 ∧ m = 1 then fun z => ((List.range n).map fun j => G (z.set p j)).sum else G)
  | _, _, _, G => G

theorem sum_flatMap {α : Type} [AddCommMonoid R] (l : List α) (f : α → List R) :
    (l.flatMap f).sum = (l.map fun x => (f x).sum).sum := by
  induction l with
  | nil => simp
  | cons x l ih => simp [ih]

theorem indices_sum_cons [Semiring R] (n : Nat) (ns : List Nat) (f : List Nat → R) :
    ((indices (n :: ns)).map f).sum = ((List.range n).map fun i => ((indices ns).map fun z => f (i :: z)).sum).sum := by
  rw [indices, List.map_flatMap, sum_flatMap]
  simp [List.map_map, Function.comp_def]

theorem sum_swap {α β : Type} [AddCommMonoid R] (l : List α) (m : List β) (f : α → β → R) :
    (l.map fun x => (m.map fun y => f x y).sum).sum = (m.map fun y => (l.map fun x => f x y).sum).sum := by
  induction l with
  | nil => simp
  | cons x l ih => simp [ih, List.sum_map_add]

theorem set_mid (w z : List Nat) (x j : Nat) : (w ++ x :: z).set w.length j = w ++ j :: z := by
  simp

theorem red_dot [Semiring R] : ∀ (ca cb w : List Nat) (F G : List Nat → R), Fits ca cb →
    ((indices (reduced ca cb)).map fun z => red1 w.length ca cb F (w ++ z) * red2 w.length ca cb G (w ++ z)).sum =
    ((indices (bcast ca cb)).map fun z => F (w ++ clip ca z) * G (w ++ clip cb z)).sum := by
  intro ca
  induction ca with
  | nil =>
    intro cb w F G h
    cases h
    simp [reduced, bcast, indices, red1, red2, clip]
  | cons m ca ih =>
    intro cb w F G h
    cases h with
    | @cons _ n _ cb h1 h2 =>
    have hl (x : Nat) : (w ++ [x]).length = w.length + 1 := by simp
    have ha (x : Nat) (z : List Nat) : w ++ x :: z = (w ++ [x]) ++ z := by simp
    have step (F' G' : List Nat → R) (x : Nat) :
        ((indices (reduced ca cb)).map fun z => red1 (w.length + 1) ca cb F' (w ++ x :: z) *
          red2 (w.length + 1) ca cb G' (w ++ x :: z)).sum =
        ((indices (bcast ca cb)).map fun z => F' (w ++ x :: clip ca z) * G' (w ++ x :: clip cb z)).sum := by
      have := ih cb (w ++ [x]) F' G' h2
      rw [hl] at this
      simp only [List.append_assoc, List.singleton_append] at this
      exact this
    simp only [reduced, bcast, List.zipWith_cons_cons, indices_sum_cons, red1, red2, clip]
    simp only [reduced, bcast, clip] at step
    by_cases hn : n = 1
    · subst hn
      simp only [or_true, if_true, List.range_one, List.map_cons, List.map_nil, List.sum_cons, List.sum_nil, add_zero, not_true,
        ne_eq, false_and, if_false]
      rw [step]
      simp only [set_mid]
      have hm : (if m = 1 then 1 else m) = m := by split <;> simp [*]
      rw [hm, sum_swap]
      apply sum_congr'
      intro z _
      rw [List.sum_map_mul_right]
      congr 1
      apply sum_congr'
      intro j hj
      have : (if m = 1 then 0 else j) = j := by
        have := List.mem_range.mp hj
        split <;> omega
      rw [this]
    · by_cases hm : m = 1
      · subst hm
        simp only [true_or, if_true, List.range_one, List.map_cons, List.map_nil, List.sum_cons, List.sum_nil, add_zero, hn,
          ne_eq, not_false_eq_true, and_true, if_false]
        rw [step]
        simp only [set_mid]
        rw [sum_swap]
        apply sum_congr'
        intro z _
        rw [List.sum_map_mul_left]
      · obtain rfl : m = n := by omega
        simp only [hn, or_self, if_false, and_false]
        apply sum_congr'
        intro j _
        exact step F G j

theorem red1_congr [Semiring R] {L : Nat} : ∀ (ca cb : List Nat) (p : Nat) (F F' : List Nat → R),
    (∀ z, z.length = L → F z = F' z) → ∀ z, z.length = L → red1 p ca cb F z = red1 p ca cb F' z := by
  intro ca
  induction ca with
  | nil => intro cb p F F' h z hz; simp only [red1]; exact h z hz
  | cons m ca ih =>
    intro cb p F F' h z hz
    cases cb with
    | nil => simp only [red1]; exact h z hz
    | cons n cb =>
      simp only [red1]
      refine ih cb (p + 1) _ _ ?_ z hz
      intro z hz
      split
      · apply sum_congr'
        intro j _
        exact h _ (by simpa using hz)
      · exact h z hz

theorem red2_congr [Semiring R] {L : Nat} : ∀ (ca cb : List Nat) (p : Nat) (F F' : List Nat → R),
    (∀ z, z.length = L → F z = F' z) → ∀ z, z.length = L → red2 p ca cb F z = red2 p ca cb F' z := by
  intro ca
  induction ca with
  | nil => intro cb p F F' h z hz; simp only [red2]; exact h z hz
  | cons m ca ih =>
    intro cb p F F' h z hz
    cases cb with
    | nil => simp only [red2]; exact h z hz
    | cons n cb =>
      simp only [red2]
      refine ih cb (p + 1) _ _ ?_ z hz
      intro z hz
      split
      · apply sum_congr'
        intro j _
        exact h _ (by simpa using hz)
      · exact h z hz

/-- Writing at a contracted dimension of a placed index is placing the changed inner index. -/
theorem place_set {d o z : List Nat} {p i j : Nat} (hd : d.Nodup) (hz : z.length = d.length) (hp : d[p]? = some i) :
    (place d o z).set i j = place d o (z.set p j) := by
  obtain ⟨hpl, hpi⟩ := List.getElem?_eq_some_iff.mp hp
  apply List.ext_getElem?
  intro k
  rw [List.getElem?_set]
  simp only [place, List.length_set, List.length_map, List.length_range, List.getElem?_map]
  by_cases hik : i = k
  · subst hik
    rw [if_pos rfl]
    split
    · rename_i hk
      have hm : i ∈ d := by rw [← hpi]; exact List.getElem_mem hpl
      have : d.idxOf i = p := by rw [← hpi]; exact hd.idxOf_getElem p hpl
      rw [List.getElem?_range hk]
      simp [hm, this, List.getD_eq_getElem?_getD, List.getElem?_set, hz, hpl]
    · rename_i hk
      rw [List.getElem?_eq_none (by simpa using hk)]
      rfl
  · rw [if_neg hik]
    by_cases hk : k < o.length + z.length
    · simp only [List.getElem?_range hk, Option.map_some]
      congr 1
      split
      · rename_i hm
        have : p ≠ d.idxOf k := by
          intro e
          apply hik
          have := List.getElem_idxOf (List.idxOf_lt_length_of_mem hm)
          rw [← hpi, ← this]
          congr 1
        simp [List.getD_eq_getElem?_getD, List.getElem?_set, this]
      · rfl
    · rw [List.getElem?_eq_none (by simpa using hk)]
      rfl

theorem gather_set_ne {q l r : List Nat} {i x : Nat} (h : i ∉ q) (hg : gather q l = some r) :
    gather q (l.set i x) = some r := by
  induction q generalizing r with
  | nil => rw [gather_nil] at hg ⊢; exact hg
  | cons k q ih =>
    obtain ⟨y, r', h1, h2, rfl⟩ := gather_cons.mp hg
    refine gather_cons.mpr ⟨y, r', ?_, ih (fun hm => h (List.mem_cons_of_mem _ hm)) h2, rfl⟩
    rw [List.getElem?_set_ne (fun e => h (by rw [e]; exact List.mem_cons_self)), h1]

/-- The loop over the contracted dimensions. -/
theorem bcastLoop [Semiring R] (a b : Blk R) (da db : List Nat) (hda : da.Nodup) (hdb : db.Nodup) (oa ob : List Nat) :
    ∀ (da2 db2 da1 db1 ca cb : List Nat) (t1 t2 : Blk R) (n : Nat), da = da1 ++ da2 → db = db1 ++ db2 →
    da1.length = db1.length → gather da2 a.dims = some ca → gather db2 b.dims = some cb → Fits ca cb →
    t1.dims.length = a.dims.length → t2.dims.length = b.dims.length →
    gather da2 t1.dims = some ca → gather db2 t2.dims = some cb →
    ∃ t1' t2', (da2.zip db2).foldlM (Dense.shapeStep a b) (t1, t2, n) = .ok (t1', t2', n * (reduced ca cb).prod) ∧
      t1'.dims.length = a.dims.length ∧ t2'.dims.length = b.dims.length ∧
      gather da2 t1'.dims = some (reduced ca cb) ∧ gather db2 t2'.dims = some (reduced ca cb) ∧
      (∀ i, i ∉ da2 → t1'.dims[i]? = t1.dims[i]?) ∧ (∀ i, i ∉ db2 → t2'.dims[i]? = t2.dims[i]?) ∧
      (∀ z, z.length = da.length → t1'.f (place da oa z) = red1 da1.length ca cb (fun z => t1.f (place da oa z)) z) ∧
      (∀ z, z.length = db.length → t2'.f (place db ob z) = red2 db1.length ca cb (fun z => t2.f (place db ob z)) z) := by
  intro da2
  induction da2 with
  | nil =>
    intro db2 da1 db1 ca cb t1 t2 n e1 e2 el h1 h2 hf l1 l2 g1 g2
    rw [gather_nil] at h1; cases h1
    cases hf
    have := gather_length h2
    obtain rfl : db2 = [] := by simpa using this.symm
    exact ⟨t1, t2, by simp [pure, Except.pure, reduced], l1, l2, by simp [reduced, gather_nil], by simp [reduced, gather_nil],
      fun _ _ => rfl, fun _ _ => rfl, fun z _ => by simp [red1], fun z _ => by simp [red2]⟩
  | cons i da2 ih =>
    intro db2 da1 db1 ca cb t1 t2 n e1 e2 el h1 h2 hf l1 l2 g1 g2
    obtain ⟨m, ca, x1, h1', rfl⟩ := gather_cons.mp h1
    clear h1
    have h1 := h1'
    cases hf with
    | @cons _ k _ cb hmk hf =>
    cases db2 with
    | nil => rw [gather_nil] at h2; cases h2
    | cons j db2 =>
    obtain ⟨k', cb', x2, h2', e⟩ := gather_cons.mp h2
    cases e
    obtain ⟨_, _, y1, g1', e⟩ := gather_cons.mp g1
    cases e
    obtain ⟨_, _, y2, g2', e⟩ := gather_cons.mp g2
    cases e
    clear h2 g1 g2
    have h2 := h2'
    have g1 := g1'
    have g2 := g2'
    have ni : i ∉ da2 := by
      have := e1 ▸ hda
      exact (List.nodup_cons.mp (List.nodup_append.mp this).2.1).1
    have nj : j ∉ db2 := by
      have := e2 ▸ hdb
      exact (List.nodup_cons.mp (List.nodup_append.mp this).2.1).1
    have hpi : da[da1.length]? = some i := by rw [e1]; simp
    have hpj : db[db1.length]? = some j := by rw [e2]; simp
    have e1' : da = (da1 ++ [i]) ++ da2 := by rw [e1]; simp
    have e2' : db = (db1 ++ [j]) ++ db2 := by rw [e2]; simp
    have el' : (da1 ++ [i]).length = (db1 ++ [j]).length := by simp [el]
    have la : (da1 ++ [i]).length = da1.length + 1 := by simp
    have lb : (db1 ++ [j]).length = db1.length + 1 := by simp
    rw [List.zip_cons_cons, List.foldlM_cons]
    simp only [Dense.shapeStep, x1, x2]
    by_cases hk : k = 1
    · subst hk
      simp only [if_true, bind, Except.bind]
      obtain ⟨t1', t2', q1, q2, q3, q4, q5, q6, q7, q8, q9⟩ := ih db2 (da1 ++ [i]) (db1 ++ [j]) ca cb (Dense.sumKeep i t1) t2 n
        e1' e2' el' h1 h2 hf (by simp [Dense.sumKeep, l1]) l2 (gather_set_ne ni g1) g2
      refine ⟨t1', t2', by rw [q1]; simp [reduced], q2, q3, ?_, ?_, ?_, ?_, ?_, ?_⟩
      · refine gather_cons.mpr ⟨1, reduced ca cb, ?_, q4, by simp [reduced]⟩
        rw [q6 i ni]
        obtain ⟨hi, -⟩ := List.getElem?_eq_some_iff.mp y1
        simp [Dense.sumKeep, hi]
      · refine gather_cons.mpr ⟨1, reduced ca cb, ?_, q5, by simp [reduced]⟩
        rw [q7 j nj, y2]
      · intro i' hi'
        rw [q6 i' (fun h => hi' (List.mem_cons_of_mem _ h))]
        simp only [Dense.sumKeep]
        rw [List.getElem?_set_ne]
        intro e; exact hi' (by rw [e]; exact List.mem_cons_self)
      · intro j' hj'
        exact q7 j' (fun h => hj' (List.mem_cons_of_mem _ h))
      · intro z hz
        rw [q8 z hz, la]
        simp only [red1, if_true]
        refine red1_congr ca cb _ _ _ ?_ z hz
        intro z hz
        simp only [Dense.sumKeep, List.getD_eq_getElem?_getD, y1, Option.getD_some]
        apply sum_congr'
        intro x _
        rw [place_set hda hz hpi]
      · intro z hz
        rw [q9 z hz, lb]
        simp [red2]
    · by_cases hm : m = 1
      · subst hm
        simp only [if_true, hk, if_false, bind, Except.bind]
        obtain ⟨t1', t2', q1, q2, q3, q4, q5, q6, q7, q8, q9⟩ := ih db2 (da1 ++ [i]) (db1 ++ [j]) ca cb t1 (Dense.sumKeep j t2) n
          e1' e2' el' h1 h2 hf l1 (by simp [Dense.sumKeep, l2]) g1 (gather_set_ne nj g2)
        refine ⟨t1', t2', by rw [q1]; simp [reduced], q2, q3, ?_, ?_, ?_, ?_, ?_, ?_⟩
        · refine gather_cons.mpr ⟨1, reduced ca cb, ?_, q4, by simp [reduced]⟩
          rw [q6 i ni, y1]
        · refine gather_cons.mpr ⟨1, reduced ca cb, ?_, q5, by simp [reduced]⟩
          rw [q7 j nj]
          obtain ⟨hj, -⟩ := List.getElem?_eq_some_iff.mp y2
          simp [Dense.sumKeep, hj]
        · intro i' hi'
          exact q6 i' (fun h => hi' (List.mem_cons_of_mem _ h))
        · intro j' hj'
          rw [q7 j' (fun h => hj' (List.mem_cons_of_mem _ h))]
          simp only [Dense.sumKeep]
          rw [List.getElem?_set_ne]
          intro e; exact hj' (by rw [e]; exact List.mem_cons_self)
        · intro z hz
          rw [q8 z hz, la]
          simp [red1, hk]
        · intro z hz
          rw [q9 z hz, lb]
          simp only [red2, ne_eq, hk, not_false_eq_true, and_self, if_true]
          refine red2_congr ca cb _ _ _ ?_ z hz
          intro z hz
          simp only [Dense.sumKeep, List.getD_eq_getElem?_getD, y2, Option.getD_some]
          apply sum_congr'
          intro x _
          rw [place_set hdb hz hpj]
      · obtain rfl : m = k := by omega
        simp only [hk, if_false, if_true, bind, Except.bind]
        obtain ⟨t1', t2', q1, q2, q3, q4, q5, q6, q7, q8, q9⟩ := ih db2 (da1 ++ [i]) (db1 ++ [j]) ca cb t1 t2 (n * m)
          e1' e2' el' h1 h2 hf l1 l2 g1 g2
        refine ⟨t1', t2', by rw [q1]; simp [reduced, hk, mul_assoc], q2, q3, ?_, ?_, ?_, ?_, ?_, ?_⟩
        · refine gather_cons.mpr ⟨m, reduced ca cb, ?_, q4, by simp [reduced, hk]⟩
          rw [q6 i ni, y1]
        · refine gather_cons.mpr ⟨m, reduced ca cb, ?_, q5, by simp [reduced, hk]⟩
          rw [q7 j nj, y2]
        · intro i' hi'
          exact q6 i' (fun h => hi' (List.mem_cons_of_mem _ h))
        · intro j' hj'
          exact q7 j' (fun h => hj' (List.mem_cons_of_mem _ h))
        · intro z hz
          rw [q8 z hz, la]
          simp [red1, hk]
        · intro z hz
          rw [q9 z hz, lb]
          simp [red2, hk]

/-- C59 with broadcasting: `tensorgdot` accepts contracted dimensions that fit, and its result has the sizes of `c` and
the entries `beta * c + alpha * (a . b)`, where a contracted dimension of size one counts as one of the other size with
equal entries. Missing: the documented roles of `alpha` and `beta` (`C59_roles_fails`). -/
theorem C59_broadcast_partial [Semiring R] (c a b : Blk R) (da db sa sb ca cb : List Nat) (beta alpha : R)
    (hda : da.Nodup) (hdb : db.Nodup) (hca : gather da a.dims = some ca) (hcb : gather db b.dims = some cb)
    (hf : Fits ca cb)
    (hoa : gather (others da a.dims.length) a.dims = some sa) (hob : gather (others db b.dims.length) b.dims = some sb)
    (hc : c.dims = sa ++ sb) :
    ∃ r, Dense.tensorgdot c a b da db beta alpha = .ok r ∧ r.dims = c.dims ∧
      ∀ oa ob, InRange oa sa → InRange ob sb →
        r.f (oa ++ ob) = beta * c.f (oa ++ ob) + alpha * denseDotB a b da db ca cb oa ob := by
  have hlen : da.length = db.length := by
    rw [← gather_length hca, ← gather_length hcb]; exact List.Forall₂.length_eq hf
  have key (oa ob : List Nat) := bcastLoop a b da db hda hdb oa ob da db [] [] ca cb a b 1 rfl rfl rfl hca hcb hf rfl rfl hca hcb
  obtain ⟨t1, t2, q1, q2, q3, q4, q5, q6, q7, -, -⟩ := key [] []
  have hg {q l l' r : List Nat} (h : ∀ i ∈ q, l'[i]? = l[i]?) (hq : gather q l = some r) : gather q l' = some r := by
    induction q generalizing r with
    | nil => rw [gather_nil] at hq ⊢; exact hq
    | cons k q ih =>
      obtain ⟨y, r', h1, h2, rfl⟩ := gather_cons.mp hq
      exact gather_cons.mpr ⟨y, r', by rw [h k List.mem_cons_self, h1], ih (fun i hi => h i (List.mem_cons_of_mem _ hi)) h2, rfl⟩
  obtain ⟨r, e1, e2, e3⟩ := gdot_core c a b t1 t2 da db sa sb (reduced ca cb) beta alpha hda hdb hlen q2 q3
    (by rw [q1, one_mul]) q4 q5
    (hg (fun i hi => q6 i (by simpa using (List.mem_filter.mp hi).2)) hoa)
    (hg (fun i hi => q7 i (by simpa using (List.mem_filter.mp hi).2)) hob) hc
  refine ⟨r, e1, e2, ?_⟩
  intro oa ob hoa' hob'
  rw [e3 oa ob hoa' hob']
  obtain ⟨t1', t2', w1, -, -, -, -, -, -, w8, w9⟩ := key oa ob
  rw [q1] at w1
  cases w1
  congr 2
  unfold denseDot denseDotB
  have := red_dot ca cb [] (fun z => a.f (place da oa z)) (fun z => b.f (place db ob z)) hf
  simp only [List.nil_append] at this
  rw [← this]
  apply sum_congr'
  intro z hz
  have hz : z.length = (reduced ca cb).length := by
    rw [indices_eq, allIdx_eq] at hz
    obtain ⟨k, hk, rfl⟩ := List.mem_map.mp hz
    exact List.Forall₂.length_eq (unflat_inRange (List.mem_range.mp hk))
  rw [w8 z (by rw [hz, gather_length q4]), w9 z (by rw [hz, gather_length q5])]

/-- A 2x3x2 tensor against a 1x2x2 tensor: the dimension of size three is summed against one of size one. -/
example : ∃ r, Dense.tensorgdot (⟨[2, 2], fun o => o.sum⟩ : Blk ℤ) ⟨[2, 3, 2], fun o => o.sum⟩ ⟨[1, 2, 2], fun o => o.sum + 1⟩
    [1, 2] [0, 1] 2 5 = .ok r ∧ r.f [1, 0] = 2 * 1 + 5 * ((1 + 2 + 3) * 1 + (2 + 3 + 4) * 2) := by
  obtain ⟨r, h1, -, h2⟩ := C59_broadcast_partial (⟨[2, 2], fun o => o.sum⟩ : Blk ℤ) ⟨[2, 3, 2], fun o => o.sum⟩
    ⟨[1, 2, 2], fun o => o.sum + 1⟩ [1, 2] [0, 1] [2] [2] [3, 2] [1, 2] 2 5 (by simp) (by simp) rfl rfl (by simp [Fits]) rfl rfl rfl
  refine ⟨r, h1, ?_⟩
  have := h2 [1] [0] (by simp [InRange]) (by simp [InRange])
  simp only [List.cons_append, List.nil_append] at this
  rw [this]
  decide

/-- Sizes that do not fit are refused. -/
theorem C59_reject_fit [Semiring R] (c a b : Blk R) (da db ca cb : List Nat) (beta alpha : R)
    (hca : gather da a.dims = some ca) (hcb : gather db b.dims = some cb) (hf : ¬ Fits ca cb) :
    ∃ e, Dense.tensorgdot c a b da db beta alpha = Res.throw e := by
  by_cases hlen : da.length = db.length
  · have key : ∀ (da db ca cb : List Nat) (st : Blk R × Blk R × Nat), da.length = db.length → gather da a.dims = some ca →
        gather db b.dims = some cb → ¬ Fits ca cb →
        (da.zip db).foldlM (Dense.shapeStep a b) st = Res.throw .runtimeError := by
      intro da
      induction da with
      | nil =>
        intro db ca cb st hl h1 h2 hf
        obtain rfl : db = [] := by simpa using hl.symm
        rw [gather_nil] at h1 h2
        cases h1; cases h2
        exact absurd List.Forall₂.nil hf
      | cons i da ih =>
        intro db ca cb st hl h1 h2 hf
        cases db with
        | nil => simp at hl
        | cons j db =>
          obtain ⟨m, ca, x1, h1', rfl⟩ := gather_cons.mp h1
          obtain ⟨k, cb, x2, h2', rfl⟩ := gather_cons.mp h2
          clear h1 h2
          have h1 := h1'
          have h2 := h2'
          rw [List.zip_cons_cons, List.foldlM_cons]
          simp only [Dense.shapeStep, x1, x2]
          by_cases hmk : m = k ∨ m = 1 ∨ k = 1
          · have hf' : ¬ Fits ca cb := fun h => hf (List.Forall₂.cons hmk h)
            have hl' : da.length = db.length := by simpa using hl
            split
            · exact ih db ca cb _ hl' h1 h2 hf'
            · split
              · exact ih db ca cb _ hl' h1 h2 hf'
              · split
                · exact ih db ca cb _ hl' h1 h2 hf'
                · omega
          · rw [if_neg (by omega), if_neg (by omega), if_neg (by omega)]
            rfl
    refine ⟨.runtimeError, ?_⟩
    unfold Dense.tensorgdot Dense.computeShape
    rw [if_neg (by simpa using hlen), key da db ca cb _ hlen hca hcb hf]
    rfl
  · exact ⟨_, C59_reject_length c a b da db beta alpha hlen⟩

example : ∃ e, Dense.tensorgdot (⟨[], fun _ => 1⟩ : Blk ℤ) ⟨[2], fun _ => 1⟩ ⟨[3], fun _ => 0⟩ [0] [0] 1 1 = Res.throw e :=
  C59_reject_fit _ _ _ _ _ [2] [3] _ _ rfl rfl (by simp [Fits])

end QuantiT
