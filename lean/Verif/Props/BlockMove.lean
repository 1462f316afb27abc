import Verif.Lemmas.BlockMove
import Verif.Lemmas.SvdPositive
/-
C80: moving the orthogonality center of a block MPS.
-/
namespace QuantiT
namespace BN
open Spec BT MP Finset
variable {G R : Type}

/-- What a move keeps. -/
structure Kept [AddCommMonoid G] [Semiring R] (s s' : List (BT G R)) : Prop where
  len : s'.length = s.length
  chained : Chained 3 s'
  outer : SameOuter s s'
  same : SameState (s.map denseOf) (s'.map denseOf)
  nonzero : NonZero (s'.map denseOf)

theorem SameOuter.trans [AddCommMonoid G] {a b c : List (BT G R)} (h : SameOuter a b) (h' : SameOuter b c) : SameOuter a c :=
  ⟨h'.phys.trans h.phys, h'.left.trans h.left, h'.right.trans h.right, h'.rule.trans h.rule⟩

theorem Kept.trans [AddCommMonoid G] [Semiring R] {a b c : List (BT G R)} (h : Kept a b) (h' : Kept b c) : Kept a c :=
  ⟨h'.len.trans h.len, h'.chained, SameOuter.trans h.outer h'.outer, SameState.trans h.same h'.same, h'.nonzero⟩

theorem NonZero.of_same [Semiring R] {s s' : List (Blk R)} (h : SameState s s') (hn : NonZero s) : NonZero s' := by
  obtain ⟨cs, l, r, h1, h2, h3, h4⟩ := hn
  refine ⟨cs, l, r, by rw [h.phys]; exact h1, by rw [h.left]; exact h2, by rw [h.right]; exact h3, ?_⟩
  rw [h.amp cs l r h1 h2 h3]
  exact h4

theorem pos_of_site [AddCommGroup G] [Semiring R] {s : List (BT G R)} (hch : Chained 3 s) (hn : NonZero (s.map denseOf)) {i : Nat}
    {A : BT G R} (hA : s[i]? = some A) : A.blocks ≠ [] ∧ ∀ d ∈ A.shape, 0 < dimSize d := by
  obtain ⟨cs, l, r, h1, h2, h3, h4⟩ := hn
  obtain ⟨a, c, b, g1, g2⟩ := site_ne_zero _ cs l r (linked_dense (by omega) hch) h1 h2 h4 i (denseOf A) (by simp [hA])
  exact blocks_of_entry g1 g2

/-- What a move keeps of any chain, a zero state too. -/
structure KeptAll [AddCommMonoid G] [Semiring R] (s s' : List (BT G R)) : Prop where
  len : s'.length = s.length
  chained : Chained 3 s'
  outer : SameOuter s s'
  same : SameState (s.map denseOf) (s'.map denseOf)

theorem KeptAll.trans [AddCommMonoid G] [Semiring R] {a b c : List (BT G R)} (h : KeptAll a b) (h' : KeptAll b c) : KeptAll a c :=
  ⟨h'.len.trans h.len, h'.chained, SameOuter.trans h.outer h'.outer, SameState.trans h.same h'.same⟩

theorem KeptAll.kept [AddCommMonoid G] [Semiring R] {a b : List (BT G R)} (h : KeptAll a b) (hn : NonZero (a.map denseOf)) : Kept a b :=
  ⟨h.len, h.chained, h.outer, h.same, NonZero.of_same h.same hn⟩

/-- Every dimension of every tensor has a section, and no section is empty. -/
def Filled (s : List (BT G R)) : Prop := ∀ A ∈ s, ∀ d ∈ A.shape, d ≠ [] ∧ ∀ x ∈ d, 0 < x.1

theorem Filled.pos {s : List (BT G R)} (h : Filled s) {A : BT G R} (hA : A ∈ s) : ∀ d ∈ A.shape, 0 < dimSize d := by
  intro d hd
  obtain ⟨h1, h2⟩ := h A hA d hd
  exact dimSize_pos_of h1 h2

theorem filled_set2 {s : List (BT G R)} (h : Filled s) {p q : Nat} {X Y : BT G R} (hX : ∀ d ∈ X.shape, d ≠ [] ∧ ∀ x ∈ d, 0 < x.1)
    (hY : ∀ d ∈ Y.shape, d ≠ [] ∧ ∀ x ∈ d, 0 < x.1) : Filled ((s.set p X).set q Y) := by
  intro A hA
  rcases List.mem_or_eq_of_mem_set hA with hA | rfl
  · rcases List.mem_or_eq_of_mem_set hA with hA | rfl
    · exact h A hA
    · exact hX
  · exact hY

theorem flipped_filled [AddCommGroup G] {b : Dim G} (h : b ≠ []) (hp : ∀ s ∈ b, 0 < s.1) : flipped b ≠ [] ∧ ∀ s ∈ flipped b, 0 < s.1 := by
  refine ⟨by simpa [flipped] using h, fun s hs => ?_⟩
  unfold flipped at hs
  obtain ⟨x, hx, rfl⟩ := List.mem_map.1 hs
  exact hp x hx

/-- What one step to the right does. -/
theorem moveRight_all [AddCommGroup G] [LinearOrder G] [CommSemiring R] [StarRing R] (fac : Blk R → Blk R × Blk R × Blk R)
    (hfac : SvdSizes fac) (hprod : SvdProduct fac) (horth : SvdOrtho fac) (hreal : SvdReal fac)
    (m : BMPS G R) (hch : Chained 3 m.sites) (hoc : m.oc + 1 < m.sites.length) {A : BT G R} (hA : m.sites[m.oc]? = some A)
    (hAb : A.blocks ≠ []) (hAz : ∀ d ∈ A.shape, 0 < dimSize d) :
    ∃ N m', (∀ fuel, N ≤ fuel → moveRight fuel star fac m = some (.ok m')) ∧ m'.oc = m.oc + 1 ∧ KeptAll m.sites m'.sites ∧
      (∀ A, m'.sites[m.oc]? = some A → LeftOrth (denseOf A)) ∧
      (∀ i, i ≠ m.oc → i ≠ m.oc + 1 → m'.sites[i]? = m.sites[i]?) ∧ (Filled m.sites → Filled m'.sites) := by
  have hB : m.sites[m.oc + 1]? = some (m.sites[m.oc + 1]'(by omega)) := List.getElem?_eq_getElem _
  generalize m.sites[m.oc + 1]'(by omega) = B at hB
  obtain ⟨sA, rA⟩ := hch.1 _ (List.mem_of_getElem? hA)
  obtain ⟨sB, rB⟩ := hch.1 _ (List.mem_of_getElem? hB)
  obtain ⟨l, s, n, dA⟩ := List.length_eq_three.1 rA
  obtain ⟨n', t, r, dB⟩ := List.length_eq_three.1 rB
  have hnn := hch.2 m.oc A B hA hB
  rw [dA, dB] at hnn
  have hnn : Opposite n n' := hnn
  obtain ⟨u, d, v, b, e1, ⟨u1, u2, u3⟩, ⟨d1, d2, d3⟩, ⟨v1, v2, v3⟩, ⟨b1, b2, b3⟩, hp, ho, hr⟩ :=
    C79_split_partial fac hfac hprod horth A [l, s] [n] dA (by simp) (by simp) sA.1 hAz hAb
  have hr := hr hreal
  have zn : 0 < dimSize n := hAz n (by rw [dA]; simp)
  have hnne : n ≠ [] := by rintro rfl; simp [dimSize] at zn
  have lb : b.length < 2 ^ 63 := by
    have := sA.2 n (by rw [dA]; simp)
    simp at b3; omega
  have v1 : v.shape = [flipped n] ++ [b] := v1
  obtain ⟨vd, e2, w1, w2, w3, w4⟩ := mul_last v d [flipped n] b v1 d1 d2 v3 d3
    (by intro x hx; simp at hx; subst hx; simpa [flipped] using hnne) b1
  have w1' : (conj star vd).shape = [n, flipped b] := by
    rw [conj_shape, w1]; simp [flipped_flipped]
  have svd' : Sound (conj star vd) := by
    refine Sound.conj ⟨w3, fun x hx => ?_⟩
    rw [w1] at hx
    simp at hx
    rcases hx with rfl | rfl
    · simpa [flipped] using sA.2 n (by rw [dA]; simp)
    · exact lb
  obtain ⟨N, z, e3, z1, z2, z3, z4⟩ := dot_left svd' sB w1' dB hnn
  obtain ⟨-, ce, cr, -⟩ := C27_conj (star : R → R) (star_zero R) star_star vd
  have sz : Sound z := ⟨z3, fun x hx => by
    rw [z1] at hx
    simp at hx
    rcases hx with rfl | rfl | rfl
    · simpa [flipped] using lb
    · exact sB.2 _ (by rw [dB]; simp)
    · exact sB.2 _ (by rw [dB]; simp)⟩
  have su : Sound u := ⟨u3, fun x hx => by
    rw [u1] at hx
    simp at hx
    rcases hx with rfl | rfl | rfl
    · exact sA.2 _ (by rw [dA]; simp)
    · exact sA.2 _ (by rw [dA]; simp)
    · exact lb⟩
  have hdot : ∀ fuel, N ≤ fuel → moveRight fuel star fac m = some (.ok ⟨(m.sites.set m.oc u).set (m.oc + 1) z, m.oc + 1⟩) := by
    intro fuel hf
    unfold moveRight
    have e1' : svdSplit fac A 2 = .ok (u, d, v) := e1
    rw [hA, hB]
    simp only [orUb, andThen_ok, e1', e2, e3 fuel hf]
  have hrule : u.rule + z.rule = A.rule + B.rule := by rw [u2, z2, cr, w2, v2]; simp
  obtain ⟨k1, k2⟩ := pair_replaceB hA hB hch dA dB (by simpa using u1) z1 (opposite_flipped b) su sz hrule
  have hpr : ∀ i c c' j, i < dimSize l → c < dimSize s → c' < dimSize t → j < dimSize r →
      ∑ x ∈ range (dimSize b), (denseOf u).f [i, c, x] * (denseOf z).f [x, c', j]
        = ∑ x ∈ range (dimSize n), (denseOf A).f [i, c, x] * (denseOf B).f [x, c', j] := by
    intro i c c' j hi hc hc' hj
    show ∑ x ∈ range (dimSize b), entry u.shape u.blocks [i, c, x] * entry z.shape z.blocks [x, c', j]
        = ∑ x ∈ range (dimSize n), entry A.shape A.blocks [i, c, x] * entry B.shape B.blocks [x, c', j]
    have : ∀ x ∈ range (dimSize n), entry A.shape A.blocks [i, c, x] * entry B.shape B.blocks [x, c', j]
        = ∑ y ∈ range (dimSize b), (entry u.shape u.blocks [i, c, y] * entry d.shape d.blocks [y] * star (entry v.shape v.blocks [x, y]))
            * entry B.shape B.blocks [x, c', j] := by
      intro x hx
      have := hp [i, c] [x] (.cons hi (.cons hc .nil)) (.cons (mem_range.1 hx) .nil)
      simp only [List.cons_append, List.nil_append] at this
      rw [this, Finset.sum_mul]
    rw [Finset.sum_congr rfl this, Finset.sum_comm]
    refine Finset.sum_congr rfl fun y hy => ?_
    rw [z4 y c' j (by rw [dimSize_flipped]; exact mem_range.1 hy) hc' hj, Finset.mul_sum]
    refine Finset.sum_congr rfl fun x hx => ?_
    have := w4 [x] y (.cons (by rw [dimSize_flipped]; exact mem_range.1 hx) .nil) (mem_range.1 hy)
    simp only [List.cons_append, List.nil_append] at this
    rw [ce, this, star_mul', hr y]
    ring
  have hset : ((m.sites.set m.oc u).set (m.oc + 1) z).map denseOf =
      ((m.sites.map denseOf).set m.oc (denseOf u)).set (m.oc + 1) (denseOf z) := by
    rw [List.map_set, List.map_set]
  have hss := (pair_replace (sites := m.sites.map denseOf) (p := m.oc) (A := denseOf A) (B := denseOf B) (A' := denseOf u) (B' := denseOf z)
    (by simp [hA]) (by simp [hB]) (linked_dense (by omega) hch)
    (by rw [denseOf_dims, dA]; rfl) (by rw [denseOf_dims, dB, dimSize_opposite hnn]; rfl) (by rw [denseOf_dims, u1]; rfl)
    (by rw [denseOf_dims, z1, ← dimSize_flipped b]; rfl) hpr).1
  rw [← hset] at hss
  refine ⟨N, _, hdot, rfl, ⟨by simp, k1, k2, hss⟩, ?_, ?_, ?_⟩
  · intro X hX
    rw [getElem?_set2 hoc, if_neg (by omega), if_pos rfl] at hX
    cases hX
    intro a b' ha hb
    have gd : (denseOf u).dims = [dimSize l, dimSize s, dimSize b] := by rw [denseOf_dims, u1]; rfl
    obtain ⟨g0, g1, g2⟩ := getD_dims gd
    rw [g2] at ha hb
    rw [g0, g1]
    have := (ho a b' ha hb).1
    rw [show ([l, s] : Shape G).map dimSize = [dimSize l, dimSize s] from rfl, sum_configs_cons'] at this
    rw [← this]
    refine Finset.sum_congr rfl fun i _ => ?_
    rw [sum_configs_cons']
    refine Finset.sum_congr rfl fun c _ => ?_
    rw [sum_configs_nil]
    rfl
  · intro i h1 h2
    rw [getElem?_set2 hoc, if_neg h2, if_neg h1]
  · intro hf
    have hA' := hf A (List.mem_of_getElem? hA)
    have hB' := hf B (List.mem_of_getElem? hB)
    rw [dB] at hB'
    have hbp := svdSplit_bond_pos A [l, s] [n] dA (by simp) (by simp) sA.1 hAz (fun d hd => (hA' d hd).2) e1 d1
    rw [dA] at hA'
    exact filled_set2 hf
      (by
        rw [u1]
        intro x hx
        simp at hx
        rcases hx with rfl | rfl | rfl
        · exact hA' _ (by simp)
        · exact hA' _ (by simp)
        · exact ⟨b1, hbp⟩)
      (by
        rw [z1]
        intro x hx
        simp at hx
        rcases hx with rfl | rfl | rfl
        · exact flipped_filled b1 hbp
        · exact hB' _ (by simp)
        · exact hB' _ (by simp))

/-- What one step to the right does to a state that is not zero. -/
theorem moveRight_ok [AddCommGroup G] [LinearOrder G] [CommSemiring R] [StarRing R] (fac : Blk R → Blk R × Blk R × Blk R)
    (hfac : SvdSizes fac) (hprod : SvdProduct fac) (horth : SvdOrtho fac) (hreal : SvdReal fac)
    (m : BMPS G R) (hch : Chained 3 m.sites) (hn : NonZero (m.sites.map denseOf)) (hoc : m.oc + 1 < m.sites.length) :
    ∃ N m', (∀ fuel, N ≤ fuel → moveRight fuel star fac m = some (.ok m')) ∧ m'.oc = m.oc + 1 ∧ Kept m.sites m'.sites ∧
      (∀ A, m'.sites[m.oc]? = some A → LeftOrth (denseOf A)) ∧
      (∀ i, i ≠ m.oc → i ≠ m.oc + 1 → m'.sites[i]? = m.sites[i]?) := by
  have hA : m.sites[m.oc]? = some (m.sites[m.oc]'(by omega)) := List.getElem?_eq_getElem _
  obtain ⟨hAb, hAz⟩ := pos_of_site hch hn hA
  obtain ⟨N, m', h1, h2, h3, h4, h5, -⟩ := moveRight_all fac hfac hprod horth hreal m hch hoc hA hAb hAz
  exact ⟨N, m', h1, h2, h3.kept hn, h4, h5⟩

/-- What one step to the left does. -/
theorem moveLeft_all [AddCommGroup G] [LinearOrder G] [CommSemiring R] [StarRing R] (fac : Blk R → Blk R × Blk R × Blk R)
    (hfac : SvdSizes fac) (hprod : SvdProduct fac) (horth : SvdOrtho fac)
    (m : BMPS G R) (hch : Chained 3 m.sites) (h0 : 0 < m.oc) {B : BT G R} (hB0 : m.sites[m.oc]? = some B)
    (hBb : B.blocks ≠ []) (hBz : ∀ d ∈ B.shape, 0 < dimSize d) :
    ∃ N m', (∀ fuel, N ≤ fuel → moveLeft fuel star fac m = some (.ok m')) ∧ m'.oc = m.oc - 1 ∧ KeptAll m.sites m'.sites ∧
      (∀ A, m'.sites[m.oc]? = some A → RightOrth (denseOf A)) ∧
      (∀ i, i ≠ m.oc → i + 1 ≠ m.oc → m'.sites[i]? = m.sites[i]?) ∧ (Filled m.sites → Filled m'.sites) := by
  have hoc := (List.getElem?_eq_some_iff.1 hB0).1
  obtain ⟨p, hp0⟩ : ∃ p, m.oc = p + 1 := ⟨m.oc - 1, by omega⟩
  have hp1 : p + 1 < m.sites.length := by omega
  have hA : m.sites[p]? = some (m.sites[p]'(by omega)) := List.getElem?_eq_getElem _
  have hB : m.sites[p + 1]? = some B := by rw [← hp0]; exact hB0
  generalize m.sites[p]'(by omega) = A at hA
  obtain ⟨sA, rA⟩ := hch.1 _ (List.mem_of_getElem? hA)
  obtain ⟨sB, rB⟩ := hch.1 _ (List.mem_of_getElem? hB)
  obtain ⟨l, s, n, dA⟩ := List.length_eq_three.1 rA
  obtain ⟨n', t, r, dB⟩ := List.length_eq_three.1 rB
  have hnn := hch.2 p A B hA hB
  rw [dA, dB] at hnn
  have hnn : Opposite n n' := hnn
  obtain ⟨u, d, v, b, e1, ⟨u1, u2, u3⟩, ⟨d1, d2, d3⟩, ⟨v1, v2, v3⟩, ⟨b1, b2, b3⟩, hp, ho, -⟩ :=
    C79_split_partial fac hfac hprod horth B [n'] [t, r] dB (by simp) (by simp) sB.1 hBz hBb
  have zn : 0 < dimSize n' := hBz n' (by rw [dB]; simp)
  have hnne : n' ≠ [] := by rintro rfl; simp [dimSize] at zn
  have lb : b.length < 2 ^ 63 := by
    have := sB.2 n' (by rw [dB]; simp)
    simp at b2; omega
  have v1 : v.shape = [flipped t, flipped r, b] := v1
  -- the site left behind
  obtain ⟨cc, ce, cr, -⟩ := C27_conj (star : R → R) (star_zero R) star_star v
  have cs : (conj star v).shape = [t, r, flipped b] := by rw [conj_shape, v1]; simp [flipped_flipped]
  obtain ⟨q, e2, q1, q2, q3, q4⟩ := C20_permute (conj star v) (cc v3) [2, 0, 1] [2, 0, 1]
    (by rw [cs]; exact (by decide : [2, 0, 1].Perm (List.range 3)))
    (by
      rw [cs]
      exact .cons ⟨(by decide : 2 < 3), .inl rfl⟩ (.cons ⟨(by decide : 0 < 3), .inl rfl⟩ (.cons ⟨(by decide : 1 < 3), .inl rfl⟩ .nil)))
  have q1 : q.shape = [flipped b, t, r] := by rw [cs] at q1; exact (Option.some.inj q1).symm
  have q4 : ∀ k c j, k < dimSize b → c < dimSize t → j < dimSize r →
      entry q.shape q.blocks [k, c, j] = star (entry v.shape v.blocks [c, j, k]) := by
    intro k c j hk hc hj
    rw [q4 [c, j, k] [k, c, j] (by rw [cs]; exact .cons hc (.cons hj (.cons (by rw [dimSize_flipped]; exact hk) .nil))) rfl, ce]
  obtain ⟨ud, e3, w1, w2, w3, w4⟩ := mul_last u d [n'] b u1 d1 d2 u3 d3
    (by intro x hx; simp at hx; subst hx; exact hnne) b1
  have w1 : ud.shape = [n', b] := w1
  have sud : Sound ud := ⟨w3, fun x hx => by
    rw [w1] at hx
    simp at hx
    rcases hx with rfl | rfl
    · exact sB.2 _ (by rw [dB]; simp)
    · exact lb⟩
  obtain ⟨N, z, e4, z1, z2, z3, z4⟩ := dot_right sA sud dA w1 hnn
  have sz : Sound z := ⟨z3, fun x hx => by
    rw [z1] at hx
    simp at hx
    rcases hx with rfl | rfl | rfl
    · exact sA.2 _ (by rw [dA]; simp)
    · exact sA.2 _ (by rw [dA]; simp)
    · exact lb⟩
  have sq : Sound q := ⟨q3, fun x hx => by
    rw [q1] at hx
    simp at hx
    rcases hx with rfl | rfl | rfl
    · simpa [flipped] using lb
    · exact sB.2 _ (by rw [dB]; simp)
    · exact sB.2 _ (by rw [dB]; simp)⟩
  have hdot : ∀ fuel, N ≤ fuel → moveLeft fuel star fac m = some (.ok ⟨(m.sites.set p z).set (p + 1) q, p⟩) := by
    intro fuel hf
    unfold moveLeft
    have e1' : svdSplit fac B 1 = .ok (u, d, v) := e1
    rw [hp0, Nat.add_sub_cancel, hA, hB]
    simp only [orUb, andThen_ok, e1', e2, e3, e4 fuel hf]
    rw [List.set_comm _ _ (by omega)]
  have hrule : z.rule + q.rule = A.rule + B.rule := by rw [z2, q2, cr, w2, v2, u2]; simp
  obtain ⟨k1, k2⟩ := pair_replaceB hA hB hch dA dB z1 q1 (opposite_flipped b) sz sq hrule
  have hpr : ∀ i c c' j, i < dimSize l → c < dimSize s → c' < dimSize t → j < dimSize r →
      ∑ x ∈ range (dimSize b), (denseOf z).f [i, c, x] * (denseOf q).f [x, c', j]
        = ∑ x ∈ range (dimSize n), (denseOf A).f [i, c, x] * (denseOf B).f [x, c', j] := by
    intro i c c' j hi hc hc' hj
    show ∑ x ∈ range (dimSize b), entry z.shape z.blocks [i, c, x] * entry q.shape q.blocks [x, c', j]
        = ∑ x ∈ range (dimSize n), entry A.shape A.blocks [i, c, x] * entry B.shape B.blocks [x, c', j]
    have hlt : ∀ x ∈ range (dimSize n), x < dimSize n' := fun x hx => by rw [← dimSize_opposite hnn]; exact mem_range.1 hx
    have : ∀ x ∈ range (dimSize n), entry A.shape A.blocks [i, c, x] * entry B.shape B.blocks [x, c', j]
        = ∑ y ∈ range (dimSize b), entry A.shape A.blocks [i, c, x] *
            (entry u.shape u.blocks [x, y] * entry d.shape d.blocks [y] * star (entry v.shape v.blocks [c', j, y])) := by
      intro x hx
      have := hp [x] [c', j] (.cons (hlt x hx) .nil) (.cons hc' (.cons hj .nil))
      simp only [List.cons_append, List.nil_append] at this
      rw [this, Finset.mul_sum]
    rw [Finset.sum_congr rfl this, Finset.sum_comm]
    refine Finset.sum_congr rfl fun y hy => ?_
    rw [z4 i c y hi hc (mem_range.1 hy), Finset.sum_mul, q4 y c' j (mem_range.1 hy) hc' hj]
    refine Finset.sum_congr rfl fun x hx => ?_
    have := w4 [x] y (.cons (hlt x hx) .nil) (mem_range.1 hy)
    simp only [List.cons_append, List.nil_append] at this
    rw [this]
    simp only [mul_assoc]
  have hset : ((m.sites.set p z).set (p + 1) q).map denseOf =
      ((m.sites.map denseOf).set p (denseOf z)).set (p + 1) (denseOf q) := by
    rw [List.map_set, List.map_set]
  have gq : (denseOf q).dims = [dimSize b, dimSize t, dimSize r] := by rw [denseOf_dims, q1, ← dimSize_flipped b]; rfl
  have hss := (pair_replace (sites := m.sites.map denseOf) (p := p) (A := denseOf A) (B := denseOf B) (A' := denseOf z) (B' := denseOf q)
    (by simp [hA]) (by simp [hB]) (linked_dense (by omega) hch)
    (by rw [denseOf_dims, dA]; rfl) (by rw [denseOf_dims, dB, dimSize_opposite hnn]; rfl) (by rw [denseOf_dims, z1]; rfl)
    gq hpr).1
  rw [← hset] at hss
  refine ⟨N, _, hdot, by simp [hp0], ⟨by simp, k1, k2, hss⟩, ?_, ?_, ?_⟩
  · intro X hX
    rw [getElem?_set2 hp1, if_pos hp0] at hX
    cases hX
    intro a b' ha hb
    obtain ⟨g0, g1, g2⟩ := getD_dims gq
    rw [g0] at ha hb
    rw [g1, g2]
    have := (ho a b' ha hb).2
    rw [show (([t, r] : Shape G).map dimSize) = [dimSize t, dimSize r] from rfl, sum_configs_cons'] at this
    rw [← this]
    refine Finset.sum_congr rfl fun i hi => ?_
    rw [sum_configs_cons']
    refine Finset.sum_congr rfl fun c hc => ?_
    rw [sum_configs_nil]
    show entry q.shape q.blocks [a, i, c] * star (entry q.shape q.blocks [b', i, c]) = _
    rw [q4 a i c ha (mem_range.1 hi) (mem_range.1 hc), q4 b' i c hb (mem_range.1 hi) (mem_range.1 hc), star_star]
    rfl
  · intro i h1 h2
    rw [getElem?_set2 hp1, if_neg (by omega), if_neg (by omega)]
  · intro hf
    have hA' := hf A (List.mem_of_getElem? hA)
    have hB' := hf B (List.mem_of_getElem? hB)
    rw [dA] at hA'
    have hbp := svdSplit_bond_pos B [n'] [t, r] dB (by simp) (by simp) sB.1 hBz (fun d hd => (hB' d hd).2) e1 d1
    rw [dB] at hB'
    exact filled_set2 hf
      (by
        rw [z1]
        intro x hx
        simp at hx
        rcases hx with rfl | rfl | rfl
        · exact hA' _ (by simp)
        · exact hA' _ (by simp)
        · exact ⟨b1, hbp⟩)
      (by
        rw [q1]
        intro x hx
        simp at hx
        rcases hx with rfl | rfl | rfl
        · exact flipped_filled b1 hbp
        · exact hB' _ (by simp)
        · exact hB' _ (by simp))

/-- What one step to the left does to a state that is not zero. -/
theorem moveLeft_ok [AddCommGroup G] [LinearOrder G] [CommSemiring R] [StarRing R] (fac : Blk R → Blk R × Blk R × Blk R)
    (hfac : SvdSizes fac) (hprod : SvdProduct fac) (horth : SvdOrtho fac)
    (m : BMPS G R) (hch : Chained 3 m.sites) (hn : NonZero (m.sites.map denseOf)) (h0 : 0 < m.oc) (hoc : m.oc < m.sites.length) :
    ∃ N m', (∀ fuel, N ≤ fuel → moveLeft fuel star fac m = some (.ok m')) ∧ m'.oc = m.oc - 1 ∧ Kept m.sites m'.sites ∧
      (∀ A, m'.sites[m.oc]? = some A → RightOrth (denseOf A)) ∧
      (∀ i, i ≠ m.oc → i + 1 ≠ m.oc → m'.sites[i]? = m.sites[i]?) := by
  have hA : m.sites[m.oc]? = some (m.sites[m.oc]'(by omega)) := List.getElem?_eq_getElem _
  obtain ⟨hAb, hAz⟩ := pos_of_site hch hn hA
  obtain ⟨N, m', h1, h2, h3, h4, h5, -⟩ := moveLeft_all fac hfac hprod horth m hch h0 hA hAb hAz
  exact ⟨N, m', h1, h2, h3.kept hn, h4, h5⟩

theorem Kept.rfl' [AddCommMonoid G] [Semiring R] {s : List (BT G R)} (hch : Chained 3 s) (hn : NonZero (s.map denseOf)) : Kept s s :=
  ⟨rfl, hch, ⟨rfl, rfl, rfl, rfl⟩, SameState.refl _, hn⟩

theorem movesRight_ok [AddCommGroup G] [LinearOrder G] [CommSemiring R] [StarRing R] (fac : Blk R → Blk R × Blk R × Blk R)
    (hfac : SvdSizes fac) (hprod : SvdProduct fac) (horth : SvdOrtho fac) (hreal : SvdReal fac) :
    ∀ (k : Nat) (m : BMPS G R), Chained 3 m.sites → NonZero (m.sites.map denseOf) → m.oc + k < m.sites.length →
    ∃ N m', (∀ fuel, N ≤ fuel → movesRight fuel star fac k m = some (.ok m')) ∧ m'.oc = m.oc + k ∧ Kept m.sites m'.sites ∧
      (∀ j A, m'.sites[j]? = some A → m.oc ≤ j → j < m.oc + k → LeftOrth (denseOf A)) ∧
      (∀ j, j < m.oc ∨ m.oc + k < j → m'.sites[j]? = m.sites[j]?)
  | 0, m, hch, hn, hk => ⟨0, m, fun _ _ => rfl, rfl, Kept.rfl' hch hn, fun j A _ h1 h2 => by omega, fun _ _ => rfl⟩
  | k + 1, m, hch, hn, hk => by
    obtain ⟨N1, m1, e1, o1, k1, q1, u1⟩ := moveRight_ok fac hfac hprod horth hreal m hch hn (by omega)
    obtain ⟨N2, m2, e2, o2, k2, q2, u2⟩ := movesRight_ok fac hfac hprod horth hreal k m1 k1.chained k1.nonzero
      (by rw [k1.len]; omega)
    refine ⟨max N1 N2, m2, ?_, by omega, k1.trans k2, ?_, ?_⟩
    · intro fuel hf
      unfold movesRight
      rw [e1 fuel (by omega), andThen_ok, e2 fuel (by omega)]
    · intro j A hA h1 h2
      by_cases hj : j = m.oc
      · subst hj
        rw [u2 _ (by omega)] at hA
        exact q1 A hA
      · exact q2 j A hA (by omega) (by omega)
    · intro j hj
      rw [u2 j (by omega), u1 j (by omega) (by omega)]

theorem movesLeft_ok [AddCommGroup G] [LinearOrder G] [CommSemiring R] [StarRing R] (fac : Blk R → Blk R × Blk R × Blk R)
    (hfac : SvdSizes fac) (hprod : SvdProduct fac) (horth : SvdOrtho fac) :
    ∀ (k : Nat) (m : BMPS G R), Chained 3 m.sites → NonZero (m.sites.map denseOf) → m.oc < m.sites.length → k ≤ m.oc →
    ∃ N m', (∀ fuel, N ≤ fuel → movesLeft fuel star fac k m = some (.ok m')) ∧ m'.oc = m.oc - k ∧ Kept m.sites m'.sites ∧
      (∀ j A, m'.sites[j]? = some A → m.oc - k < j → j ≤ m.oc → RightOrth (denseOf A)) ∧
      (∀ j, j < m.oc - k ∨ m.oc < j → m'.sites[j]? = m.sites[j]?)
  | 0, m, hch, hn, _, _ => ⟨0, m, fun _ _ => rfl, rfl, Kept.rfl' hch hn, fun j A _ h1 h2 => by omega, fun _ _ => rfl⟩
  | k + 1, m, hch, hn, hoc, hk => by
    obtain ⟨N1, m1, e1, o1, k1, q1, u1⟩ := moveLeft_ok fac hfac hprod horth m hch hn (by omega) hoc
    obtain ⟨N2, m2, e2, o2, k2, q2, u2⟩ := movesLeft_ok fac hfac hprod horth k m1 k1.chained k1.nonzero
      (by rw [k1.len]; omega) (by omega)
    refine ⟨max N1 N2, m2, ?_, by omega, k1.trans k2, ?_, ?_⟩
    · intro fuel hf
      unfold movesLeft
      rw [e1 fuel (by omega), andThen_ok, e2 fuel (by omega)]
    · intro j A hA h1 h2
      by_cases hj : j = m.oc
      · subst hj
        rw [u2 _ (by omega)] at hA
        exact q1 A hA
      · exact q2 j A hA (by omega) (by omega)
    · intro j hj
      rw [u2 j (by omega), u1 j (by omega) (by omega)]

/-- **C80.**  `bMPS::move_oc(i)` on a chain of block tensors with a nonzero amplitude, from any center to any site: it
returns a chain of block tensors with the center at `i`, the same physical dimensions and ends, charges included, and the
same total rule, that stands for the same state; the sites it passed are isometries towards the new center, the sites
outside of the way are untouched, and a canonical chain stays canonical. -/
theorem C80_move_oc_partial [AddCommGroup G] [LinearOrder G] [CommSemiring R] [StarRing R] (fac : Blk R → Blk R × Blk R × Blk R)
    (hfac : SvdSizes fac) (hprod : SvdProduct fac) (horth : SvdOrtho fac) (hreal : SvdReal fac) (m : BMPS G R)
    (hch : Chained 3 m.sites) (hn : NonZero (m.sites.map denseOf)) (hoc : m.oc < m.sites.length) (i : Nat)
    (hi : i < m.sites.length) :
    ∃ N m', (∀ fuel, N ≤ fuel → moveOcB fuel star fac m i = some (.ok m')) ∧
      m'.oc = i ∧ m'.sites.length = m.sites.length ∧ Chained 3 m'.sites ∧ SameOuter m.sites m'.sites ∧
      SameState (m.sites.map denseOf) (m'.sites.map denseOf) ∧
      (∀ j A, m'.sites[j]? = some A → m.oc ≤ j → j < i → LeftOrth (denseOf A)) ∧
      (∀ j A, m'.sites[j]? = some A → i < j → j ≤ m.oc → RightOrth (denseOf A)) ∧
      (∀ j, (j < m.oc ∧ j < i) ∨ (m.oc < j ∧ i < j) → m'.sites[j]? = m.sites[j]?) ∧
      (Canonical (m.sites.map denseOf) m.oc → Canonical (m'.sites.map denseOf) i) := by
  obtain ⟨N1, m1, e1, o1, k1, q1, u1⟩ := movesLeft_ok fac hfac hprod horth (m.oc - i) m hch hn hoc (by omega)
  obtain ⟨N2, m2, e2, o2, k2, q2, u2⟩ := movesRight_ok fac hfac hprod horth hreal (i - m1.oc) m1 k1.chained k1.nonzero
    (by rw [k1.len]; omega)
  have hL : ∀ j A, m2.sites[j]? = some A → m.oc ≤ j → j < i → LeftOrth (denseOf A) :=
    fun j A hA h1 h2 => q2 j A hA (by omega) (by omega)
  have hR : ∀ j A, m2.sites[j]? = some A → i < j → j ≤ m.oc → RightOrth (denseOf A) := by
    intro j A hA h1 h2
    rw [u2 j (by omega)] at hA
    exact q1 j A hA (by omega) h2
  have hU : ∀ j, (j < m.oc ∧ j < i) ∨ (m.oc < j ∧ i < j) → m2.sites[j]? = m.sites[j]? := by
    intro j hj
    rw [u2 j (by omega), u1 j (by omega)]
  have k := k1.trans k2
  refine ⟨max N1 N2, m2, ?_, by omega, k.len, k.chained, k.outer, k.same, hL, hR, hU, ?_⟩
  · intro fuel hf
    unfold moveOcB
    rw [if_neg (by omega), Int.toNat_natCast, e1 fuel (by omega), andThen_ok]
    exact e2 fuel (by omega)
  · rintro ⟨c1, c2⟩
    refine ⟨fun j A hA hj => ?_, fun j A hA hj => ?_⟩
    · rw [List.getElem?_map] at hA
      obtain ⟨A', h', rfl⟩ := Option.map_eq_some_iff.1 hA
      by_cases h : m.oc ≤ j
      · exact hL j A' h' h hj
      · rw [hU j (by omega)] at h'
        exact c1 j _ (by simp [h']) (by omega)
    · rw [List.getElem?_map] at hA
      obtain ⟨A', h', rfl⟩ := Option.map_eq_some_iff.1 hA
      by_cases h : j ≤ m.oc
      · exact hR j A' h' hj h
      · rw [hU j (by omega)] at h'
        exact c2 j _ (by simp [h']) (by omega)

/-- **C80.**  A target outside of the chain is rejected. -/
theorem C80_reject [AddCommGroup G] [LinearOrder G] [Semiring R] (fuel : Nat) (c : R → R) (fac : Blk R → Blk R × Blk R × Blk R)
    (m : BMPS G R) (i : Int) (hi : i < 0 ∨ (m.sites.length : Int) ≤ i) :
    moveOcB fuel c fac m i = some (Res.throw .invalidArgument) := by
  unfold moveOcB
  rw [if_pos (by omega)]

/-- **C80.**  The center is not moved off a tensor that stores no block, a zero state for instance: the decomposition reads
the charge of a bond that is empty. -/
theorem C80_zero_fails [AddCommGroup G] [LinearOrder G] [Semiring R] [StarRing R] (fac : Blk R → Blk R × Blk R × Blk R)
    (hfac : SvdSizes fac) (hprod : SvdProduct fac) (horth : SvdOrtho fac) (m : BMPS G R) (A : BT G R) (hA : m.sites[m.oc]? = some A)
    (h3 : A.shape.length = 3) (hz : ∀ d ∈ A.shape, 0 < dimSize d) (hb : A.blocks = []) (i : Nat) (hi : i < m.sites.length)
    (hne : i ≠ m.oc) (fuel : Nat) : moveOcB fuel star fac m i = some Res.ub := by
  obtain ⟨l, s, r, dA⟩ := List.length_eq_three.1 h3
  have f1 : svdSplit fac A 1 = Res.ub := C79_empty_fails fac hfac hprod horth A [l] [s, r] dA (by simp) (by simp) hz hb
  have f2 : svdSplit fac A 2 = Res.ub := C79_empty_fails fac hfac hprod horth A [l, s] [r] dA (by simp) (by simp) hz hb
  have hoc := (List.getElem?_eq_some_iff.1 hA).1
  unfold moveOcB
  rw [if_neg (by omega), Int.toNat_natCast]
  by_cases h : i < m.oc
  · obtain ⟨k, hk⟩ : ∃ k, m.oc - i = k + 1 := ⟨m.oc - i - 1, by omega⟩
    have hB : m.sites[m.oc - 1]? = some (m.sites[m.oc - 1]'(by omega)) := List.getElem?_eq_getElem _
    rw [hk, movesLeft, moveLeft, hA, hB]
    simp only [orUb, andThen_ok, f1]
    rfl
  · obtain ⟨k, hk⟩ : ∃ k, i - m.oc = k + 1 := ⟨i - m.oc - 1, by omega⟩
    have hB : m.sites[m.oc + 1]? = some (m.sites[m.oc + 1]'(by omega)) := List.getElem?_eq_getElem _
    rw [show m.oc - i = 0 by omega, movesLeft, andThen_ok, hk, movesRight, moveRight, hA, hB]
    simp only [orUb, andThen_ok, f2]
    rfl

end BN
end QuantiT
