import Verif.Props.GDot
import Verif.Spec.Strided
/-
C106: the contractions that write into a tensor of the caller.
-/
namespace QuantiT
open Spec BT Dense
variable {R : Type}

/-! ### Writing a tensor -/

theorem write_fold (v : View) (val : List Nat → R) : ∀ (l : List (List Nat)) (m : Nat → R) (x : Nat),
    ((∀ o ∈ l, x ≠ v.addr o) → l.foldl (fun m o => fun x => if x = v.addr o then val o else m x) m x = m x) ∧
    (∀ o ∈ l, x = v.addr o → (∀ o' ∈ l, v.addr o' = v.addr o → o' = o) →
      l.foldl (fun m o => fun x => if x = v.addr o then val o else m x) m x = val o) := by
  intro l
  induction l with
  | nil => intro m x; exact ⟨fun _ => rfl, by simp⟩
  | cons o l ih =>
    intro m x
    constructor
    · intro h
      rw [List.foldl_cons, (ih _ x).1 (fun o' ho' => h o' (List.mem_cons_of_mem _ ho')), if_neg (h o List.mem_cons_self)]
    · intro o' ho' hx hi
      rw [List.foldl_cons]
      by_cases hm : o' ∈ l
      · exact (ih _ x).2 o' hm hx (fun o'' h'' => hi o'' (List.mem_cons_of_mem _ h''))
      · obtain rfl : o' = o := by
          rcases List.mem_cons.mp ho' with h | h
          · exact h
          · exact absurd h hm
        rw [(ih _ x).1, if_pos hx]
        intro o'' h'' e
        exact hm ((hi o'' (List.mem_cons_of_mem _ h'') (by rw [← hx, e])) ▸ h'')

/-- What storing into the reshaped output does when the reshaped output is a view of it. -/
theorem store_view {viewOf : View → List Nat → Option View} (ht : TorchReshape viewOf) {out w : View} {n1 n2 : Nat}
    (val : List Nat → R) (m : Nat → R) (hw : viewOf out [n1, n2] = some w) (hn : n1 * n2 = out.sizes.prod) (hno : NoOverlap out) :
    ∃ m', storeReshaped viewOf out n1 n2 val m = .ok m' ∧
      (∀ o, InRange o out.sizes → m' (out.addr o) = val (unflat [n1, n2] (flat out.sizes o))) ∧
      (∀ x, (∀ o, InRange o out.sizes → x ≠ out.addr o) → m' x = m x) := by
  obtain ⟨e1, e2, e3⟩ := ht.shares _ _ _ hw
  refine ⟨w.write val m, ?_, ?_, ?_⟩
  · unfold storeReshaped
    rw [if_neg (by simpa using hn), hw]
  · intro o ho
    have hk : flat out.sizes o < [n1, n2].prod := by rw [e2]; exact flat_lt ho
    have hc : out.addr o = w.addr (unflat [n1, n2] (flat out.sizes o)) := by
      rw [e3 _ hk, unflat_flat ho]
    refine (write_fold w val (allIdx w.sizes) m (out.addr o)).2 _ ?_ hc ?_
    · rw [mem_allIdx, e1]; exact unflat_inRange hk
    · intro o' ho' ha
      rw [mem_allIdx, e1] at ho'
      have hk' : flat [n1, n2] o' < [n1, n2].prod := flat_lt ho'
      have h1 := e3 _ hk'
      rw [unflat_flat ho', ha, ← hc] at h1
      have := hno _ _ ho (unflat_inRange (by rw [← e2]; exact hk')) h1
      rw [this, flat_unflat (by rw [← e2]; exact hk'), unflat_flat ho']
  · intro x hx
    refine (write_fold w val (allIdx w.sizes) m x).1 ?_
    intro o' ho' e
    rw [mem_allIdx, e1] at ho'
    have hk' : flat [n1, n2] o' < [n1, n2].prod := flat_lt ho'
    have h1 := e3 _ hk'
    rw [unflat_flat ho'] at h1
    exact hx _ (unflat_inRange (by rw [← e2]; exact hk')) (e.trans h1)

/-! ### When the output can be seen as a matrix -/

theorem evenly_view {viewOf : View → List Nat → Option View} (ht : TorchReshape viewOf) {out : View} {sa sb : List Nat}
    (hs : out.sizes = sa ++ sb) (he : EvenlySpaced out sa sb) : ∃ w, viewOf out [sa.prod, sb.prod] = some w := by
  obtain ⟨x, y, h⟩ := he
  refine ht.whenPossible out _ ⟨[sa.prod, sb.prod], [x, y], out.offset⟩ ⟨rfl, by simp [hs], ?_⟩
  intro k hk
  have hk' : k < (sa ++ sb).prod := by simpa using hk
  have hu := unflat_inRange hk'
  have hf := flat_unflat hk'
  rw [hs]
  generalize unflat (sa ++ sb) k = u at hu hf
  have hl := List.Forall₂.length_eq hu
  have h1 := List.forall₂_take_append u sa sb hu
  have h2 := List.forall₂_drop_append u sa sb hu
  have e : u = u.take sa.length ++ u.drop sa.length := (List.take_append_drop _ _).symm
  generalize u.take sa.length = oa at h1 e
  generalize u.drop sa.length = ob at h2 e
  subst e
  rw [h oa ob h1 h2]
  rw [flat_append (List.Forall₂.length_eq h1)] at hf
  have hlt := flat_lt h2
  have : unflat [sa.prod, sb.prod] k = [flat sa oa, flat sb ob] := by
    simp only [unflat, List.prod_nil, Nat.div_one, List.prod_singleton]
    rw [← hf, Nat.mul_comm, Nat.mul_add_div (by omega), Nat.mul_add_mod, Nat.mod_eq_of_lt hlt, Nat.div_eq_of_lt hlt]
    simp
  rw [this]
  simp [View.addr, Nat.add_assoc]

theorem view_evenly {viewOf : View → List Nat → Option View} (ht : TorchReshape viewOf) {out w : View} {sa sb : List Nat}
    (hs : out.sizes = sa ++ sb) (hw : viewOf out [sa.prod, sb.prod] = some w) : EvenlySpaced out sa sb := by
  obtain ⟨e1, e2, e3⟩ := ht.shares _ _ _ hw
  rw [hs] at e3
  refine ⟨w.strides.getD 0 0, w.strides.getD 1 0, ?_⟩
  have cell (oa ob : List Nat) (ha : InRange oa sa) (hb : InRange ob sb) :
      out.addr (oa ++ ob) = w.addr [flat sa oa, flat sb ob] := by
    have hr : InRange (oa ++ ob) (sa ++ sb) := List.rel_append ha hb
    have hk := flat_lt hr
    have := e3 (flat (sa ++ sb) (oa ++ ob)) (by simpa using hk)
    rw [unflat_flat hr] at this
    rw [← this]
    congr 1
    have hlt := flat_lt hb
    simp only [flat_append (List.Forall₂.length_eq ha), unflat, List.prod_nil, Nat.div_one, List.prod_singleton]
    rw [Nat.mul_comm, Nat.mul_add_div (by omega), Nat.mul_add_mod, Nat.mod_eq_of_lt hlt, Nat.div_eq_of_lt hlt]
    simp
  have wa (i j : Nat) : w.addr [i, j] = w.offset + i * w.strides.getD 0 0 + j * w.strides.getD 1 0 := by
    rcases hst : w.strides with _ | ⟨s, _ | ⟨t, l⟩⟩ <;> simp [View.addr, hst, Nat.add_assoc]
  intro oa ob ha hb
  rw [cell oa ob ha hb, wa]
  congr 2
  have ha0 : 0 < (sa ++ sb).prod := Nat.lt_of_le_of_lt (Nat.zero_le _) (flat_lt (is := oa ++ ob) (List.rel_append ha hb))
  have h0 := e3 0 (by simpa using ha0)
  have z1 : ∀ (ns : List Nat), unflat ns 0 = List.replicate ns.length 0 := by
    intro ns
    induction ns with
    | nil => rfl
    | cons n ns ih => simp [unflat, ih, List.replicate_succ]
  have z2 : ∀ (v : View) (n : Nat), v.addr (List.replicate n 0) = v.offset := by
    intro v n
    unfold View.addr
    have : ∀ (n : Nat) (l : List Nat), (List.zipWith (· * ·) (List.replicate n 0) l).sum = 0 := by
      intro n
      induction n with
      | zero => intro l; simp
      | succ n ih => intro l; cases l with
        | nil => simp
        | cons x l => simp [List.replicate_succ, ih]
    rw [this, Nat.add_zero]
  rw [z1, z1, z2, z2] at h0
  exact h0

/-- A tensor in row-major order is evenly spaced for every separation of its dimensions. -/
theorem rowMajor_evenly (sa sb : List Nat) (off : Nat) : EvenlySpaced ⟨sa ++ sb, rowStrides (sa ++ sb), off⟩ sa sb := by
  refine ⟨sb.prod, 1, ?_⟩
  intro oa ob ha hb
  have key : ∀ (ns o : List Nat), InRange o ns → (List.zipWith (· * ·) o (rowStrides ns)).sum = flat ns o := by
    intro ns o h
    induction h with
    | nil => rfl
    | cons h1 h2 ih => simp [rowStrides, flat, ih]
  simp only [View.addr]
  rw [key _ _ (List.rel_append ha hb), flat_append (List.Forall₂.length_eq ha)]
  omega

/-- A matrix, with whatever strides, is evenly spaced. -/
theorem matrix_evenly (n1 n2 x y off : Nat) : EvenlySpaced ⟨[n1, n2], [x, y], off⟩ [n1] [n2] := by
  refine ⟨x, y, ?_⟩
  intro oa ob ha hb
  cases ha with
  | cons _ h => cases h; cases hb with
    | cons _ h => cases h; simp [View.addr, flat, Nat.add_assoc]

/-! ### The contraction and what is stored -/

theorem gdot_store [Semiring R] {viewOf : View → List Nat → Option View} {out : View} {add a b r : Blk R}
    {da db sa sb : List Nat} {beta alpha : R} {m : Nat → R} (h : Dense.tensorgdot add a b da db beta alpha = .ok r)
    (hs : add.dims = sa ++ sb) (hl : (others da a.dims.length).length = sa.length) :
    ∃ val, tensorgdotOut viewOf out add a b da db beta alpha m = storeReshaped viewOf out sa.prod sb.prod val m ∧
      ∀ o, r.f o = val (unflat [sa.prod, sb.prod] (flat (sa ++ sb) o)) := by
  unfold Dense.tensorgdot at h
  unfold tensorgdotOut
  rcases hc : Dense.computeShape add a b da db with e | ⟨t1, t2, p1, p2, n1, nc, n2⟩
  · rw [hc] at h; cases h
  · rw [hc] at h
    simp only [bind, Except.bind] at h ⊢
    have hn : n1 = sa.prod ∧ n2 = sb.prod := by
      unfold Dense.computeShape at hc
      split at hc
      · cases hc
      · simp only [bind, Except.bind] at hc
        split at hc
        · cases hc
        · split at hc
          · cases hc
          · split at hc
            · cases hc
            · rename_i hd
              cases hc
              have hd := (not_not.mp hd).trans hs
              obtain ⟨e1, e2⟩ := List.append_inj hd (by rw [List.length_map, outer_eq, hl])
              rw [e1, e2]
              exact ⟨rfl, rfl⟩
    obtain ⟨rfl, rfl⟩ := hn
    split at h
    · cases h
    · split at h
      · cases h
      · split at h
        · cases h
        · split at h
          · cases h
          · split at h
            · cases h
            · split at h
              · cases h
              · rename_i v _
                refine ⟨v.f, rfl, ?_⟩
                unfold reshapeBlk at h
                split at h
                · cases h
                  intro o
                  have hv : v.dims = [sa.prod, sb.prod] := by
                    rename_i c hc' _ hm _
                    unfold reshapeBlk at hc'
                    split at hc'
                    · cases hc'
                      unfold Dense.addmmScaled at hm
                      simp only [bind, Except.bind] at hm
                      split at hm
                      · cases hm
                      · split at hm
                        · cases hm; rfl
                        · cases hm
                    · cases hc'
                  simp only [hv, hs]
                · cases h

theorem inRange_two {o : List Nat} {p q : Nat} (h : InRange o [p, q]) : ∃ i j, o = [i, j] ∧ i < p ∧ j < q := by
  unfold InRange at h
  rcases h with _ | ⟨h1, _ | ⟨h2, _ | _⟩⟩
  exact ⟨_, _, rfl, h1, h2⟩

theorem inRange_three {o : List Nat} {p q r : Nat} (h : InRange o [p, q, r]) :
    ∃ i j k, o = [i, j, k] ∧ i < p ∧ j < q ∧ k < r := by
  unfold InRange at h
  rcases h with _ | ⟨h1, _ | ⟨h2, _ | ⟨h3, _ | _⟩⟩⟩
  exact ⟨_, _, _, rfl, h1, h2, h3⟩

/-! ### C106 -/

/-- C106: what `tensorgdot_out` leaves in an output of the sizes of the result, and that it touches no other memory, when
the output overlaps not itself and is evenly spaced. Missing: outputs that are not evenly spaced, which it leaves as they
were (`C106_lost`), and the documented roles of `alpha` and `beta` (`C59_roles_fails`). -/
theorem C106_out_partial [Semiring R] {viewOf : View → List Nat → Option View} (ht : TorchReshape viewOf) (out : View)
    (add a b : Blk R) (da db sa sb ca cb : List Nat) (beta alpha : R) (m : Nat → R)
    (hda : da.Nodup) (hdb : db.Nodup) (hca : gather da a.dims = some ca) (hcb : gather db b.dims = some cb)
    (hf : Fits ca cb)
    (hoa : gather (others da a.dims.length) a.dims = some sa) (hob : gather (others db b.dims.length) b.dims = some sb)
    (hadd : add.dims = sa ++ sb) (hout : out.sizes = sa ++ sb) (hno : NoOverlap out) (he : EvenlySpaced out sa sb) :
    ∃ m', tensorgdotOut viewOf out add a b da db beta alpha m = .ok m' ∧
      (∀ oa ob, InRange oa sa → InRange ob sb →
        m' (out.addr (oa ++ ob)) = beta * add.f (oa ++ ob) + alpha * denseDotB a b da db ca cb oa ob) ∧
      (∀ x, (∀ o, InRange o out.sizes → x ≠ out.addr o) → m' x = m x) := by
  obtain ⟨r, e1, -, e3⟩ := C59_broadcast_partial add a b da db sa sb ca cb beta alpha hda hdb hca hcb hf hoa hob hadd
  obtain ⟨val, f1, f2⟩ := gdot_store (viewOf := viewOf) (out := out) (m := m) e1 hadd (gather_length hoa).symm
  obtain ⟨w, hw⟩ := evenly_view ht hout he
  obtain ⟨m', g1, g2, g3⟩ := store_view ht val m hw (by simp [hout]) hno
  refine ⟨m', by rw [f1, g1], ?_, g3⟩
  intro oa ob ha hb
  rw [g2 _ (by rw [hout]; exact List.rel_append ha hb), hout, ← f2, e3 oa ob ha hb]

/-- C106: the update in place. Missing: outputs that are not evenly spaced, which it leaves as they were (`C106_lost`),
and the documented roles of `alpha` and `beta` (`C59_roles_fails`). -/
theorem C106_in_place_partial [Semiring R] {viewOf : View → List Nat → Option View} (ht : TorchReshape viewOf) (out : View)
    (a b : Blk R) (da db sa sb ca cb : List Nat) (beta alpha : R) (m : Nat → R)
    (hda : da.Nodup) (hdb : db.Nodup) (hca : gather da a.dims = some ca) (hcb : gather db b.dims = some cb)
    (hf : Fits ca cb)
    (hoa : gather (others da a.dims.length) a.dims = some sa) (hob : gather (others db b.dims.length) b.dims = some sb)
    (hout : out.sizes = sa ++ sb) (hno : NoOverlap out) (he : EvenlySpaced out sa sb) :
    ∃ m', tensorgdotInPlace viewOf out a b da db beta alpha m = .ok m' ∧
      (∀ oa ob, InRange oa sa → InRange ob sb →
        m' (out.addr (oa ++ ob)) = beta * m (out.addr (oa ++ ob)) + alpha * denseDotB a b da db ca cb oa ob) ∧
      (∀ x, (∀ o, InRange o out.sizes → x ≠ out.addr o) → m' x = m x) :=
  C106_out_partial ht out (out.read m) a b da db sa sb ca cb beta alpha m hda hdb hca hcb hf hoa hob hout hout hno he

/-- C106 fails: an output that is not evenly spaced is left as it was, by every call with fitting sizes. -/
theorem C106_lost [Semiring R] {viewOf : View → List Nat → Option View} (ht : TorchReshape viewOf) (out : View)
    (a b : Blk R) (da db sa sb ca cb : List Nat) (beta alpha : R) (m : Nat → R)
    (hda : da.Nodup) (hdb : db.Nodup) (hca : gather da a.dims = some ca) (hcb : gather db b.dims = some cb)
    (hf : Fits ca cb)
    (hoa : gather (others da a.dims.length) a.dims = some sa) (hob : gather (others db b.dims.length) b.dims = some sb)
    (hout : out.sizes = sa ++ sb) (he : ¬ EvenlySpaced out sa sb) :
    tensorgdotInPlace viewOf out a b da db beta alpha m = .ok m := by
  obtain ⟨r, e1, -, -⟩ := C59_broadcast_partial (out.read m) a b da db sa sb ca cb beta alpha hda hdb hca hcb hf hoa hob hout
  obtain ⟨val, f1, -⟩ := gdot_store (viewOf := viewOf) (out := out) (m := m) e1 hout (gather_length hoa).symm
  have : tensorgdotInPlace viewOf out a b da db beta alpha m =
    tensorgdotOut viewOf out (out.read m) a b da db beta alpha m := rfl
  rw [this, f1]
  unfold storeReshaped
  rw [if_neg (by simp [hout])]
  rcases hw : viewOf out [sa.prod, sb.prod] with _ | w
  · rfl
  · exact absurd (view_evenly ht hout hw) he

/-- C106: the same without permutation, for the last dimensions of the first tensor and the first ones of the second, of
equal sizes. Missing: as for `C106_in_place_partial`; sizes whose product does not fit into `int`. -/
theorem C106_count_partial [Semiring R] {viewOf : View → List Nat → Option View} (ht : TorchReshape viewOf) (out : View)
    (a b : Blk R) (sa cs sb : List Nat) (beta alpha : R) (m : Nat → R)
    (ha : a.dims = sa ++ cs) (hb : b.dims = cs ++ sb) (h1 : sa.prod < 2 ^ 31) (h2 : sb.prod < 2 ^ 31) (h3 : cs.prod < 2 ^ 31)
    (hout : out.sizes = sa ++ sb) (hno : NoOverlap out) (he : EvenlySpaced out sa sb) :
    ∃ m', tensorgdotInPlaceN viewOf out a b cs.length beta alpha m = .ok m' ∧
      (∀ oa ob, InRange oa sa → InRange ob sb → m' (out.addr (oa ++ ob)) = beta * m (out.addr (oa ++ ob)) +
        alpha * ((indices cs).map fun z => a.f (oa ++ z) * b.f (z ++ ob)).sum) ∧
      (∀ x, (∀ o, InRange o out.sizes → x ≠ out.addr o) → m' x = m x) := by
  let M : Blk R × Blk R := (⟨[sa.prod, cs.prod], fun o => a.f (unflat (sa ++ cs) (flat [sa.prod, cs.prod] o))⟩,
    ⟨[cs.prod, sb.prod], fun o => b.f (unflat (cs ++ sb) (flat [cs.prod, sb.prod] o))⟩)
  have hmm : mm (⟨[sa.prod, cs.prod], fun o => a.f (unflat (sa ++ cs) (flat [sa.prod, cs.prod] o))⟩ : Blk R)
      ⟨[cs.prod, sb.prod], fun o => b.f (unflat (cs ++ sb) (flat [cs.prod, sb.prod] o))⟩ = _ :=
    mm_eq (R := R) (r := sa.prod) (c := cs.prod) (q := sb.prod) (p := M) rfl rfl
  have hrun : tensorgdotInPlaceN viewOf out a b cs.length beta alpha m =
      storeReshaped viewOf out sa.prod sb.prod (fun o => beta * m (out.addr (unflat (sa ++ sb) (flat [sa.prod, sb.prod] o))) +
        alpha * mmEntry M (o.getD 0 0) (o.getD 1 0)) m := by
    unfold tensorgdotInPlaceN
    have l1 : ¬ (a.dims.length < cs.length ∨ b.dims.length < cs.length) := by simp [ha, hb]
    have t1 : a.dims.take (a.dims.length - cs.length) = sa := by simp [ha]
    have t2 : a.dims.drop (a.dims.length - cs.length) = cs := by simp [ha]
    have t3 : b.dims.drop cs.length = sb := by simp [hb]
    have t4 : b.dims.take cs.length = cs := by simp [hb]
    rw [if_neg l1]
    simp only [t1, t2, t3, t4]
    rw [if_neg (by simp only [not_not]; exact ⟨h1, h2⟩), if_neg (by simp [hout]), if_neg (by simp), if_neg (by simp only [not_not]; exact h3)]
    simp only [reshapeBlk, ha, hb, hout, View.read, List.prod_cons, List.prod_nil, mul_one, List.prod_append, if_true, bind, Except.bind,
      Dense.addmmScaled, hmm]
  obtain ⟨w, hw⟩ := evenly_view ht hout he
  obtain ⟨m', g1, g2, g3⟩ := store_view ht _ m hw (by simp [hout]) hno
  refine ⟨m', by rw [hrun, g1], ?_, g3⟩
  intro oa ob hoa hob
  rw [g2 _ (by rw [hout]; exact List.rel_append hoa hob), hout]
  have hlt := flat_lt hob
  have hq : unflat [sa.prod, sb.prod] (flat (sa ++ sb) (oa ++ ob)) = [flat sa oa, flat sb ob] := by
    simp only [flat_append (List.Forall₂.length_eq hoa), unflat, List.prod_nil, Nat.div_one, List.prod_singleton]
    rw [Nat.mul_comm, Nat.mul_add_div (by omega), Nat.mul_add_mod, Nat.mod_eq_of_lt hlt, Nat.div_eq_of_lt hlt]
    simp
  have hflat (m n x y : Nat) : flat [m, n] [x, y] = x * n + y := by simp [flat]
  simp only [hq, hflat, unflat_append_flat hoa hob, List.getD_cons_zero, List.getD_cons_succ]
  congr 2
  unfold mmEntry
  rw [indices_eq, allIdx_eq, List.map_map]
  have hM : M.1.dims.getD 1 0 = cs.prod := rfl
  rw [hM]
  apply sum_congr'
  intro k hk
  have hk := List.mem_range.mp hk
  have hz := unflat_inRange hk
  have hfz := flat_unflat hk
  simp only [Function.comp]
  generalize unflat cs k = z at *
  subst hfz
  simp only [M, hflat, unflat_append_flat hoa hz, unflat_append_flat hz hob]

/-- Contracted sizes that differ are refused before anything is written. -/
theorem C106_count_reject [Semiring R] (viewOf : View → List Nat → Option View) (out : View) (a b : Blk R)
    (sa ca cb sb : List Nat) (beta alpha : R) (m : Nat → R) (ha : a.dims = sa ++ ca) (hb : b.dims = cb ++ sb)
    (hl : ca.length = cb.length) (h1 : sa.prod < 2 ^ 31) (h2 : sb.prod < 2 ^ 31) (h : ca ≠ cb ∨ out.sizes ≠ sa ++ sb) :
    tensorgdotInPlaceN viewOf out a b ca.length beta alpha m = Res.throw .runtimeError := by
  unfold tensorgdotInPlaceN
  have l1 : ¬ (a.dims.length < ca.length ∨ b.dims.length < ca.length) := by simp [ha, hb, hl]
  have t1 : a.dims.take (a.dims.length - ca.length) = sa := by simp [ha]
  have t2 : a.dims.drop (a.dims.length - ca.length) = ca := by simp [ha]
  have t3 : b.dims.drop ca.length = sb := by simp [hb, hl]
  have t4 : b.dims.take ca.length = cb := by simp [hb, hl]
  rw [if_neg l1]
  simp only [t1, t2, t3, t4]
  rw [if_neg (by simp only [not_not]; exact ⟨h1, h2⟩)]
  by_cases ho : out.sizes = sa ++ sb
  · have hc : ca ≠ cb := by
      rcases h with h | h
      · exact h
      · exact absurd ho h
    rw [if_neg (by simp [ho]), if_pos hc]
  · rw [if_pos (fun e => ho e.symm)]

/-- A `reshape` that keeps its documented contract exists. -/
theorem torchReshape_exists : ∃ viewOf, TorchReshape viewOf := by
  classical
  refine ⟨fun v s => if h : ∃ w, SameCells v w s then some h.choose else none, ?_, ?_⟩
  · intro v s w h
    split at h
    · rename_i hx
      cases h
      exact hx.choose_spec
    · cases h
  · intro v s w h
    have hx : ∃ w, SameCells v w s := ⟨w, h⟩
    exact ⟨hx.choose, by rw [dif_pos hx]⟩

/-- A transposed 2x2 matrix at offset 7 is updated in place. -/
example {viewOf : View → List Nat → Option View} (ht : TorchReshape viewOf) :
    ∃ m', tensorgdotInPlace viewOf ⟨[2, 2], [1, 2], 7⟩ (⟨[2, 3], fun o => o.sum⟩ : Blk ℤ) ⟨[3, 2], fun o => o.sum + 1⟩ [1] [0] 2 5
      (fun x => (x : ℤ)) = .ok m' ∧ m' 8 = 2 * 8 + 5 * (1 * 1 + 2 * 2 + 3 * 3) ∧ m' 11 = 11 := by
  obtain ⟨m', h1, h2, h3⟩ := C106_in_place_partial ht ⟨[2, 2], [1, 2], 7⟩ (⟨[2, 3], fun o => o.sum⟩ : Blk ℤ)
    ⟨[3, 2], fun o => o.sum + 1⟩ [1] [0] [2] [2] [3] [3] 2 5 (fun x => (x : ℤ)) (by simp) (by simp) rfl rfl (by simp [Fits]) rfl rfl rfl
    (by
      intro o o' h h' e
      obtain ⟨i, j, rfl, a1, a2⟩ := inRange_two h
      obtain ⟨i', j', rfl, b1, b2⟩ := inRange_two h'
      simp [View.addr] at e ⊢
      omega) (matrix_evenly 2 2 1 2 7)
  refine ⟨m', h1, ?_, ?_⟩
  · have := h2 [1] [0] (by simp [InRange]) (by simp [InRange])
    simpa [View.addr, denseDotB, bcast, clip, indices, place, others, List.range_succ] using this
  · refine h3 11 ?_
    intro o h
    obtain ⟨i, j, rfl, a1, a2⟩ := inRange_two h
    simp only [View.addr]
    simp
    omega

/-- The output with sizes 2x2x2 and its first two dimensions transposed. -/
def swapped222 : View := ⟨[2, 2, 2], [2, 4, 1], 0⟩

theorem swapped_not_even : ¬ EvenlySpaced swapped222 [2, 2] [2] := by
  rintro ⟨x, y, h⟩
  have h1 := h [0, 1] [0] (by simp [InRange]) (by simp [InRange])
  have h2 := h [1, 0] [0] (by simp [InRange]) (by simp [InRange])
  simp [View.addr, swapped222, flat] at h1 h2
  omega

theorem swapped_noOverlap : NoOverlap swapped222 := by
  intro o o' h h' e
  obtain ⟨i, j, k, rfl, a1, a2, a3⟩ := inRange_three h
  obtain ⟨i', j', k', rfl, b1, b2, b3⟩ := inRange_three h'
  simp [View.addr, swapped222] at e ⊢
  omega

/-- C106 fails: with `output` a 2x2x2 tensor whose first two dimensions are transposed, without overlap and full of
zeros, and inputs full of ones, `tensorgdot_` returns and `output` still holds zeros instead of ones, whatever
implementation of torch's contract is used. -/
theorem C106_in_place_fails {viewOf : View → List Nat → Option View} (ht : TorchReshape viewOf) :
    NoOverlap swapped222 ∧ ∃ m', tensorgdotInPlace viewOf swapped222 (⟨[2, 2, 1], fun _ => 1⟩ : Blk ℤ) ⟨[1, 2], fun _ => 1⟩ [2] [0] 1 1
      (fun _ => 0) = .ok m' ∧
      m' (swapped222.addr [0, 0, 0]) = 0 ∧
      1 * (0 : ℤ) + 1 * denseDotB (⟨[2, 2, 1], fun _ => 1⟩ : Blk ℤ) ⟨[1, 2], fun _ => 1⟩ [2] [0] [1] [1] [0, 0] [0] = 1 := by
  refine ⟨swapped_noOverlap, fun _ => 0, ?_, rfl, by decide⟩
  exact C106_lost ht swapped222 _ _ [2] [0] [2, 2] [2] [1] [1] 1 1 _ (by simp) (by simp) rfl rfl (by simp [Fits]) rfl rfl rfl swapped_not_even

/-- The same call without writing in place gives the right result. -/
example : ∃ r, Dense.tensorgdot (swapped222.read fun _ => (0 : ℤ)) ⟨[2, 2, 1], fun _ => 1⟩ ⟨[1, 2], fun _ => 1⟩ [2] [0] 1 1 = .ok r ∧
    r.f [0, 0, 0] = 1 := by
  obtain ⟨r, h1, -, h2⟩ := C59_broadcast_partial (swapped222.read fun _ => (0 : ℤ)) ⟨[2, 2, 1], fun _ => 1⟩ ⟨[1, 2], fun _ => 1⟩
    [2] [0] [2, 2] [2] [1] [1] 1 1 (by simp) (by simp) rfl rfl (by simp [Fits]) rfl rfl rfl
  exact ⟨r, h1, (h2 [0, 0] [0] (by simp [InRange]) (by simp [InRange])).trans (by decide)⟩

/-- C106 fails: `tensorgdot_out` accepts an output of other sizes with as many elements: a 2x3 result is written into a
3x2 output. -/
theorem C106_out_sizes_fails (viewOf : View → List Nat → Option View) :
    ∃ m', tensorgdotOut viewOf ⟨[3, 2], [2, 1], 0⟩ (⟨[2, 3], fun _ => 0⟩ : Blk ℤ) ⟨[2, 1], fun _ => 1⟩ ⟨[1, 3], fun _ => 1⟩ [1] [0] 1 1
      (fun _ => 0) = .ok m' := by
  obtain ⟨r, e1, -, -⟩ := C59_broadcast_partial (⟨[2, 3], fun _ => 0⟩ : Blk ℤ) ⟨[2, 1], fun _ => 1⟩ ⟨[1, 3], fun _ => 1⟩ [1] [0]
    [2] [3] [1] [1] 1 1 (by simp) (by simp) rfl rfl (by simp [Fits]) rfl rfl rfl
  obtain ⟨val, f1, -⟩ := gdot_store (viewOf := viewOf) (out := ⟨[3, 2], [2, 1], 0⟩) (m := fun _ => 0) e1
    (sa := [2]) (sb := [3]) rfl rfl
  rw [f1]
  unfold storeReshaped
  rw [if_neg (by simp)]
  split
  · exact ⟨_, rfl⟩
  · exact ⟨_, rfl⟩

/-- Contraction of two dimensions by count, into a row-major output. -/
example {viewOf : View → List Nat → Option View} (ht : TorchReshape viewOf) :
    ∃ m', tensorgdotInPlaceN viewOf ⟨[2, 2], [2, 1], 0⟩ (⟨[2, 1, 2], fun o => o.sum⟩ : Blk ℤ) ⟨[1, 2, 2], fun o => o.sum⟩ 2 3 1
      (fun x => (x : ℤ)) = .ok m' ∧ m' 3 = 3 * 3 + (1 * 1 + 2 * 2) := by
  obtain ⟨m', h1, h2, -⟩ := C106_count_partial ht ⟨[2, 2], [2, 1], 0⟩ (⟨[2, 1, 2], fun o => o.sum⟩ : Blk ℤ)
    ⟨[1, 2, 2], fun o => o.sum⟩ [2] [1, 2] [2] 3 1 (fun x => (x : ℤ)) rfl rfl (by decide) (by decide) (by decide) rfl
    (by
      intro o o' h h' e
      obtain ⟨i, j, rfl, a1, a2⟩ := inRange_two h
      obtain ⟨i', j', rfl, b1, b2⟩ := inRange_two h'
      simp [View.addr] at e ⊢
      omega) (rowMajor_evenly [2] [2] 0)
  refine ⟨m', h1, ?_⟩
  have := h2 [1] [1] (by simp [InRange]) (by simp [InRange])
  simpa [View.addr, indices, List.range_succ] using this

end QuantiT
