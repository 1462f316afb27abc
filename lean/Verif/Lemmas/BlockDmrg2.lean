import Verif.Lemmas.BlockDmrg
import Verif.Lemmas.TwoSite
/-
The two-site update of block tensors computes the dense one: the eigenproblem, the stored blocks, the Lanczos step.
-/
namespace QuantiT.BN
open Spec BT
variable {G : Type}

/-! ### The eigenproblem -/

theorem sc_addNan [Zero G] [DecidableEq G] (f g : List Nat → Option ℝ) :
    addNan (sc f : BT G (Option ℝ)) (sc g) = .ok (sc fun o => lift2 (fun u v => some (u + v)) (f o) (g o)) := by
  simp only [addNan, addCheck, sc]
  rfl

theorem sc_nanFound [Zero G] (f : List Nat → Option ℝ) : nanFound (sc f : BT G (Option ℝ)) = .ok (f []).isNone := by
  cases h : (f []).isNone <;> simp [nanFound, BT.any, sc, mapBlocks, blkAny, allIdx, anyLoop, h]

theorem filledLike_sc [AddCommGroup G] [DecidableEq G] (x : ℝ) {fuel : Nat} (hf : 1 ≤ fuel) (f : List Nat → Option ℝ) :
    filledLike x fuel (sc f : BT G (Option ℝ)) = some (.ok (sc fun _ => some x)) := by
  obtain ⟨n, rfl⟩ : ∃ n, fuel = n + 1 := ⟨fuel - 1, by omega⟩
  have : factoryWrap (fun _ _ _ => x) (n + 1) (sparseZeros ([] : Shape G) 0) = some (.ok (sc fun _ => x)) := by
    have h1 : fillOnce (R := ℝ) (fun _ sz => .ok (some ⟨sz, fun _ => x⟩)) (⟨[], 0, []⟩ : BT G ℝ) [] = .ok (sc fun _ => x) := by
      simp only [fillOnce, conserves, blockSizes, blockAssign, blockProps, bind, Except.bind, sc, List.map_nil, List.foldl_nil, decide_true, if_true]
      rfl
    simp only [factoryWrap, sparseZeros, fillLoop, List.length_nil, List.replicate_zero, h1]
    simp [secCounts, incr]
  simp only [filledLike]
  rw [show (sc f : BT G (Option ℝ)).shape = [] from rfl, show (sc f : BT G (Option ℝ)).rule = 0 from rfl, this]
  rfl

theorem sc_itemNan [Zero G] (f : List Nat → Option ℝ) : itemNan (sc f : BT G (Option ℝ)) = .ok (f []) := rfl

theorem eqNan_iff (o : Option ℝ) (e : ℝ) :
    eqNan (lift2 (fun u v => some (u + v)) o (some e)) (some e) ≠ some 0 ↔ ∃ x, o = some x ∧ x + e = e := by
  unfold eqNan
  split
  · rename_i h
    obtain ⟨v, h1, h2⟩ := h
    cases h2
    simp only [ne_eq, Option.some.injEq, one_ne_zero, not_false_eq_true, true_iff]
    cases o with
    | none => cases h1
    | some x => exact ⟨x, rfl, Option.some.inj h1⟩
  · rename_i h
    simp only [ne_eq, not_true_eq_false, false_iff]
    rintro ⟨x, rfl, hx⟩
    exact h ⟨e, congrArg some hx, rfl⟩

theorem lift2_bind (o : Option ℝ) (b d : ℝ) :
    lift2 DM.fdiv (lift2 (fun x y => some (x * y)) (some b) o) (some d) = o.bind fun x => DM.fdiv (b * x) d := by
  cases o <;> rfl

theorem eigCoeffs_sc [AddCommGroup G] [DecidableEq G] (a a1 b : List Nat → ℝ) :
    ∃ fe fo fn Z, eigCoeffs (sc a : BT G ℝ) (sc a1) (sc b) = .ok (sc fe, sc fo, sc fn, Z) ∧
      (let crit := √((a [] - a1 []) ^ 2 + 4 * (b [] * b []))
       let E0 := (a [] + a1 [] - crit) / 2
       let o : Option ℝ := (DM.fdiv (E0 - a1 []) (-crit)).bind DM.fsqrt
       fe [] = E0 ∧ fo [] = o ∧ fn [] = (o.bind fun x => DM.fdiv (b [] * x) (E0 - a1 [])) ∧
         (Z ↔ (∃ x, o = some x ∧ x + E0 = E0) ∨ o = none)) := by
  unfold eigCoeffs
  simp only [sc_add, sc_conj, sc_map, sc_scale, mul, sc_op, bind, Except.bind, numB, sc_addNan, sc_itemNan]
  refine ⟨_, _, _, _, rfl, ?_⟩
  simp only [one_mul, neg_mul, ← sub_eq_add_neg, id_eq, lift2_bind, eqNan_iff]
  exact ⟨trivial, rfl, rfl, Iff.rfl⟩

theorem eig2x2B_ok [AddCommGroup G] [DecidableEq G] {a a1 b : List Nat → ℝ} {e o n : ℝ} (h : DM.eig2x2 (a []) (a1 []) (b []) = .ok (e, o, n)) :
    ∃ fe fo fn, (∀ fuel, 1 ≤ fuel → eig2x2B fuel (sc a : BT G ℝ) (sc a1) (sc b) = some (.ok (sc fe, sc fo, sc fn))) ∧
      fe [] = e ∧ fo [] = o ∧ fn [] = n := by
  obtain ⟨fe, fo, fn, Z, h1, h2, h3, h4, h5⟩ := eigCoeffs_sc (G := G) a a1 b
  unfold DM.eig2x2 at h
  dsimp only at h h5
  rw [← h4, ← h3, ← h2] at h
  rw [← h3, ← h2] at h5
  by_cases hz : Z
  · rw [if_pos (h5.1 hz)] at h
    obtain ⟨rfl, rfl, rfl⟩ : fe [] = e ∧ 0 = o ∧ 1 = n := by simpa using h
    refine ⟨fe, fun _ => 0, fun _ => 1, fun fuel hf => ?_, rfl, rfl, rfl⟩
    unfold eig2x2B
    rw [h1]
    simp only [andNext, andThen, if_pos hz, filledLike_sc _ hf, sc_nanFound, Option.isNone_some, Bool.false_eq_true, if_false, sc_map,
      Option.getD_some]
  · rw [if_neg fun hc => hz (h5.2 hc)] at h
    cases ho : fo [] with
    | none => simp [ho] at h; cases h
    | some x =>
      cases hn : fn [] with
      | none => simp [ho, hn] at h; cases h
      | some y =>
        obtain ⟨rfl, rfl, rfl⟩ : fe [] = e ∧ x = o ∧ y = n := by simpa [ho, hn] using h
        refine ⟨fe, fun o => (fo o).getD 0, fun o => (fn o).getD 0, fun fuel hf => ?_, rfl, by simp [ho], by simp [hn]⟩
        unfold eig2x2B
        rw [h1]
        simp only [andNext, andThen, if_neg hz, sc_nanFound, Option.isNone_some, Bool.false_eq_true, if_false, sc_map, ho, hn]

/-! ### Stored blocks -/

section keys
variable {R : Type} [AddCommGroup G] [DecidableEq G]

theorem hasKey_tdot [Semiring R] {a b : BT G R} (ha : Sound a) (hb : Sound b)
    (da db : List Nat) (hda : da.Nodup) (hdb : db.Nodup) {sh sh' sa sb ca cb : Shape G} (ea : a.shape = sh) (eb : b.shape = sh')
    (hca : gather da sh = some ca) (hcb : gather db sh' = some cb)
    (hsa : gather (others da sh.length) sh = some sa) (hsb : gather (others db sh'.length) sh' = some sb)
    (hc : Contractible ca cb) (na : sh ≠ []) (nb : sh' ≠ []) {N : Nat} {r : BT G R}
    (hr : ∀ fuel, N ≤ fuel → tensordot fuel a b da db = some (.ok r)) (k : List Nat) :
    HasKey r k ↔ ∃ x y, HasKey a x ∧ HasKey b y ∧ gather da x = gather db y ∧
      ∃ kx ky, gather (others da sh.length) x = some kx ∧ gather (others db sh'.length) y = some ky ∧ k = kx ++ ky := by
  subst ea; subst eb
  obtain ⟨r', h1, h2⟩ := C23_stored a b ha.1 hb.1 da db hda hdb sa sb ca cb hca hcb hsa hsb hc ha.2 hb.2
    (.inr ⟨na, .inr nb⟩) _ le_rfl
  have h3 := tensordot_mono (le_max_left (a.blocks.length + b.blocks.length) N) h1
  rw [hr _ (le_max_right _ _)] at h3
  obtain rfl : r = r' := by cases h3; rfl
  refine (h2 k).trans ⟨?_, ?_⟩
  · rintro ⟨x, hx, y, hy, h⟩
    exact ⟨x.1, y.1, ⟨x.2, hx⟩, ⟨y.2, hy⟩, h⟩
  · rintro ⟨x, y, ⟨v, hx⟩, ⟨w, hy⟩, h⟩
    exact ⟨(x, v), hx, (y, w), hy, h⟩

theorem hasKey_length {t : BT G R} (h : Conserving t.shape t.rule t.blocks) {k : List Nat} (hk : HasKey t k) : k.length = t.shape.length := by
  obtain ⟨v, hv⟩ := hk
  obtain ⟨secs, h1, _⟩ := h.block k v hv
  exact (sections_length h1).1

theorem hasKey_add [Semiring R] {a b r : BT G R} {α : R} (ha : Sorted a.blocks) (hb : Sorted b.blocks) (h : add a b α = .ok r) (k : List Nat) :
    HasKey r k ↔ HasKey a k ∨ HasKey b k := by
  obtain ⟨m, h1, h2, h3⟩ := FM.mergeInsert_spec (addBlk α) (scaleBlk α) ha hb
  unfold add at h
  cases hc : addCheck a b with
  | error e => rw [hc] at h; cases h
  | ok u =>
    rw [hc] at h
    simp only [bind, Except.bind, h1, Except.ok.injEq] at h
    subst h
    rw [hasKey_iff h2, hasKey_iff ha, hasKey_iff hb, h3]
    split
    · rename_i hlt
      rw [lookup_none_of_gt hlt]
      simp
    · cases lookup a.blocks k <;> cases lookup b.blocks k <;> simp [mergeVal]

theorem gather_all {k : List Nat} {a b c d : Nat} (h : k = [a, b, c, d]) : gather [0, 1, 2, 3] k = some k := by
  subst h; rfl

theorem list4 {α : Type} {k : List α} (h : k.length = 4) : ∃ a b c d, k = [a, b, c, d] := by
  rcases k with _ | ⟨a, _ | ⟨b, _ | ⟨c, _ | ⟨d, _ | ⟨e, k⟩⟩⟩⟩⟩ <;> simp at h ⊢

theorem contr4 {d d' e e' f f' g g' : Dim G} (h : Opposite d d') (h2 : Opposite e e') (h3 : Opposite f f') (h4 : Opposite g g') :
    Contractible [d, e, f, g] [d', e', f', g'] := .cons h (.cons h2 (.cons h3 (.cons h4 .nil)))

/-- Multiplication by the two-site Hamiltonian of more blocks gives more blocks. -/
theorem hasKey_hamil2site [Semiring R] {θ θ' H L Rt t t' : BT G R} (hθ : Sound θ) (hθ' : Sound θ') (hH : Sound H) (hL : Sound L) (hR : Sound Rt)
    {l0 l1 l2 r0 r1 r2 t0 t1 t2 t3 u0 u1 v1 v2 u3 v3 : Dim G}
    (sL : L.shape = [l0, l1, l2]) (sR : Rt.shape = [r0, r1, r2]) (sθ : θ.shape = [t0, t1, t2, t3]) (sθ' : θ'.shape = [t0, t1, t2, t3])
    (sH : H.shape = [u0, u1, v1, v2, u3, v3]) (o0 : Opposite l0 t0) (o1 : Opposite l1 u0) (o2 : Opposite t1 u3)
    (o3 : Opposite t2 v3) (o4 : Opposite t3 r0) (o5 : Opposite v2 r1) {N N' : Nat}
    (h : ∀ fuel, N ≤ fuel → hamil2site fuel θ H L Rt = some (.ok t)) (h' : ∀ fuel, N' ≤ fuel → hamil2site fuel θ' H L Rt = some (.ok t'))
    (hk : ∀ k, HasKey θ k → HasKey θ' k) (k : List Nat) (hkt : HasKey t k) : HasKey t' k := by
  obtain ⟨N1, p, _, a1, _, a3, _, a5⟩ := runs_tdot (Rep.self hL) (Rep.self hθ) [0] [0] (by decide) (by decide) sL sθ rfl rfl rfl rfl (contr1 o0) (by simp) (by simp)
  obtain ⟨N1', p', _, a1', _, a3', _, a5'⟩ := runs_tdot (Rep.self hL) (Rep.self hθ') [0] [0] (by decide) (by decide) sL sθ' rfl rfl rfl rfl (contr1 o0) (by simp) (by simp)
  obtain ⟨N2, q, _, b1, _, b3, _, b5⟩ := runs_tdot (Rep.self a5.1) (Rep.self hH) [0, 2, 3] [0, 4, 5] (by decide) (by decide) a3 sH rfl rfl rfl rfl (contr3 o1 o2 o3) (by simp) (by simp)
  obtain ⟨N2', q', _, b1', _, b3', _, b5'⟩ := runs_tdot (Rep.self a5'.1) (Rep.self hH) [0, 2, 3] [0, 4, 5] (by decide) (by decide) a3' sH rfl rfl rfl rfl (contr3 o1 o2 o3) (by simp) (by simp)
  obtain ⟨N3, w, _, c1, _, c3, _, c5⟩ := runs_tdot (Rep.self b5.1) (Rep.self hR) [1, 4] [0, 1] (by decide) (by decide) b3 sR rfl rfl rfl rfl (contr2 o4 o5) (by simp) (by simp)
  obtain ⟨N3', w', _, c1', _, c3', _, c5'⟩ := runs_tdot (Rep.self b5'.1) (Rep.self hR) [1, 4] [0, 1] (by decide) (by decide) b3' sR rfl rfl rfl rfl (contr2 o4 o5) (by simp) (by simp)
  have e : t = w := by
    have := h (max N (max N1 (max N2 N3))) (by omega)
    simp only [hamil2site, a1 _ (show N1 ≤ max N (max N1 (max N2 N3)) by omega), andThen,
      b1 _ (show N2 ≤ max N (max N1 (max N2 N3)) by omega), c1 _ (show N3 ≤ max N (max N1 (max N2 N3)) by omega)] at this
    cases this; rfl
  have e' : t' = w' := by
    have := h' (max N' (max N1' (max N2' N3'))) (by omega)
    simp only [hamil2site, a1' _ (show N1' ≤ max N' (max N1' (max N2' N3')) by omega), andThen,
      b1' _ (show N2' ≤ max N' (max N1' (max N2' N3')) by omega), c1' _ (show N3' ≤ max N' (max N1' (max N2' N3')) by omega)] at this
    cases this; rfl
  subst e; subst e'
  have k1 : ∀ k, HasKey p k → HasKey p' k := by
    intro k hk'
    obtain ⟨x, y, hx, hy, hr⟩ := (hasKey_tdot hL hθ [0] [0] (by decide) (by decide) sL sθ rfl rfl rfl rfl (contr1 o0) (by simp) (by simp) a1 k).1 hk'
    exact (hasKey_tdot hL hθ' [0] [0] (by decide) (by decide) sL sθ' rfl rfl rfl rfl (contr1 o0) (by simp) (by simp) a1' k).2 ⟨x, y, hx, hk y hy, hr⟩
  have k2 : ∀ k, HasKey q k → HasKey q' k := by
    intro k hk'
    obtain ⟨x, y, hx, hy, hr⟩ := (hasKey_tdot a5.1 hH [0, 2, 3] [0, 4, 5] (by decide) (by decide) a3 sH rfl rfl rfl rfl (contr3 o1 o2 o3) (by simp) (by simp) b1 k).1 hk'
    exact (hasKey_tdot a5'.1 hH [0, 2, 3] [0, 4, 5] (by decide) (by decide) a3' sH rfl rfl rfl rfl (contr3 o1 o2 o3) (by simp) (by simp) b1' k).2 ⟨x, y, k1 x hx, hy, hr⟩
  obtain ⟨x, y, hx, hy, hr⟩ := (hasKey_tdot b5.1 hR [1, 4] [0, 1] (by decide) (by decide) b3 sR rfl rfl rfl rfl (contr2 o4 o5) (by simp) (by simp) c1 k).1 hkt
  exact (hasKey_tdot b5'.1 hR [1, 4] [0, 1] (by decide) (by decide) b3' sR rfl rfl rfl rfl (contr2 o4 o5) (by simp) (by simp) c1' k).2 ⟨x, y, k2 x hx, hy, hr⟩

end keys

/-! ### Full contractions -/

section dots
variable {𝕜 : Type} [RCLike 𝕜] [AddCommGroup G] [DecidableEq G]

theorem dot4B_cases {t t' : BT G 𝕜} {z z' : Blk 𝕜} (h : Rep t z) (h' : Rep t' z') {t0 t1 t2 t3 s0 s1 s2 s3 : Dim G}
    (sh : t.shape = [t0, t1, t2, t3]) (sh' : t'.shape = [s0, s1, s2, s3]) (o0 : Opposite t0 s0) (o1 : Opposite t1 s1) (o2 : Opposite t2 s2)
    (o3 : Opposite t3 s3) (hr : t.rule + t'.rule = 0) :
    (∃ k, HasKey t k ∧ HasKey t' k ∧ ∃ N f, (∀ fuel, N ≤ fuel → dot4B fuel t t' = some (.ok (sc f))) ∧ DM.dot4 z z' = .ok (f [])) ∨
    ((∀ k, HasKey t k → ¬ HasKey t' k) ∧ ∃ N, (∀ fuel, N ≤ fuel → dot4B fuel t t' = some (.ok noSc)) ∧ DM.dot4 z z' = .ok 0) := by
  obtain ⟨N, r, y, h1, h2, h3, h4, h5⟩ := runs_tdot h h' [0, 1, 2, 3] [0, 1, 2, 3] (by decide) (by decide) sh sh' rfl rfl rfl rfl
    (contr4 o0 o1 o2 o3) (by simp) (by simp)
  have hk := hasKey_tdot h.1 h'.1 [0, 1, 2, 3] [0, 1, 2, 3] (by decide) (by decide) sh sh' rfl rfl rfl rfl
    (contr4 o0 o1 o2 o3) (by simp) (by simp) h1
  rcases number_cases h5.1.1 h3 (h4.trans hr) with ⟨hb, hn⟩ | ⟨f, rfl⟩
  · refine .inr ⟨fun k k1 k2 => ?_, N, fun fuel hf => ?_, ?_⟩
    · have l1 := hasKey_length h.1.1 k1
      rw [sh] at l1
      obtain ⟨a, b, c, d, rfl⟩ := list4 l1
      exact ((hk []).2 ⟨_, _, k1, k2, rfl, [], [], rfl, rfl, rfl⟩).ne_nil hb
    · subst hn
      simp only [dot4B, h1 fuel hf, andThen, noSc_map]
    · unfold DM.dot4
      rw [h2]
      have : y.f [] = 0 := by
        subst hn
        rw [h5.f (o := []) (by show InRange [] []; exact .nil)]
        rfl
      simp only [bind, Except.bind, this, map_zero]
  · left
    obtain ⟨x, y', hx, hy, he, _⟩ := (hk []).1 ⟨_, List.mem_singleton.2 rfl⟩
    have l1 := hasKey_length h.1.1 hx
    have l2 := hasKey_length h'.1.1 hy
    rw [sh] at l1
    rw [sh'] at l2
    obtain ⟨a, b, c, d, rfl⟩ := list4 l1
    obtain ⟨a', b', c', d', rfl⟩ := list4 l2
    have he' : [a, b, c, d] = [a', b', c', d'] := Option.some.inj he
    rw [← he'] at hy
    refine ⟨_, hx, hy, N, fun o => RCLike.re (f o), fun fuel hf => ?_, ?_⟩
    · simp only [dot4B, h1 fuel hf, andThen, sc_map]
    · unfold DM.dot4
      rw [h2]
      have : y.f [] = f [] := by
        rw [h5.f (o := []) (by show InRange [] []; exact .nil)]
        rfl
      simp only [bind, Except.bind, this]

theorem dot4B_ok {t t' : BT G 𝕜} {z z' : Blk 𝕜} (h : Rep t z) (h' : Rep t' z') {t0 t1 t2 t3 s0 s1 s2 s3 : Dim G}
    (sh : t.shape = [t0, t1, t2, t3]) (sh' : t'.shape = [s0, s1, s2, s3]) (o0 : Opposite t0 s0) (o1 : Opposite t1 s1) (o2 : Opposite t2 s2)
    (o3 : Opposite t3 s3) (hr : t.rule + t'.rule = 0) {k : List Nat} (hk : HasKey t k) (hk' : HasKey t' k) :
    ∃ N f, (∀ fuel, N ≤ fuel → dot4B fuel t t' = some (.ok (sc f))) ∧ DM.dot4 z z' = .ok (f []) := by
  rcases dot4B_cases h h' sh sh' o0 o1 o2 o3 hr with ⟨_, _, _, h⟩ | ⟨h, _⟩
  · exact h
  · exact absurd hk' (h k hk)

end dots

end QuantiT.BN
