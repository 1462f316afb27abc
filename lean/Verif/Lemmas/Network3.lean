import Verif.Lemmas.Network2
/-
Whole chains: the loops of `contract` and the chains of environments.
-/
namespace QuantiT
namespace MP
open Finset Spec
variable {R : Type}

/-- Three chains that fit, with the sizes of their ends. -/
inductive FitTo : List (Blk R) → List (Blk R) → List (Blk R) → Cut → Cut → Prop
  | nil (N : Cut) : FitTo [] [] [] N N
  | cons {A W B a Ws b N M s t n' m' p'} : A.dims = [N.1, s, n'] → W.dims = [N.2.1, t, m', s] → B.dims = [N.2.2, t, p'] →
      FitTo a Ws b (n', m', p') M → FitTo (A :: a) (W :: Ws) (B :: b) N M

theorem Linked_tail {k : Nat} {A : Blk R} {a : List (Blk R)} (h : Linked k ((A :: a).map Blk.dims)) :
    Linked k (a.map Blk.dims) := by
  refine ⟨fun s hs => h.1 s (List.mem_cons_of_mem _ hs), fun i s s' h1 h2 => h.2 (i + 1) s s' ?_ ?_⟩
  · simpa using h1
  · simpa using h2

theorem Linked_next {k : Nat} {A B : Blk R} {a : List (Blk R)} (h : Linked k ((A :: B :: a).map Blk.dims)) (hk : 3 ≤ k) :
    B.dims.getD 0 0 = A.dims.getD 2 0 := by
  have h1 := h.2 0 A.dims B.dims rfl rfl
  have hA := h.1 A.dims (by simp)
  have hB := h.1 B.dims (by simp)
  have e1 : A.dims[2]? = some (A.dims.getD 2 0) := by
    rw [List.getD_eq_getElem _ _ (by omega)]; exact List.getElem?_eq_getElem (by omega)
  have e2 : B.dims[0]? = some (B.dims.getD 0 0) := by
    rw [List.getD_eq_getElem _ _ (by omega)]; exact List.getElem?_eq_getElem (by omega)
  rw [e1, e2] at h1
  exact (Option.some.inj h1).symm

theorem dims3 {A : Blk R} (h : A.dims.length = 3) : A.dims = [A.dims.getD 0 0, A.dims.getD 1 0, A.dims.getD 2 0] := by
  match hd : A.dims, h with
  | [x, y, z], _ => rfl

theorem dims4 {A : Blk R} (h : A.dims.length = 4) :
    A.dims = [A.dims.getD 0 0, A.dims.getD 1 0, A.dims.getD 2 0, A.dims.getD 3 0] := by
  match hd : A.dims, h with
  | [x, y, z, w], _ => rfl

theorem Fit.lengths {a Ws b : List (Blk R)} (h : Fit a Ws b) : Ws.length = a.length ∧ b.length = a.length := by
  have h1 := congrArg List.length h.cols
  have h2 := congrArg List.length h.rows
  simp only [phys, List.length_map] at h1 h2
  omega

theorem Fit.tail {A W B : Blk R} {a Ws b : List (Blk R)} (h : Fit (A :: a) (W :: Ws) (B :: b)) : Fit a Ws b :=
  ⟨Linked_tail h.ket, Linked_tail h.op, Linked_tail h.bra, (List.cons.inj h.cols).2, (List.cons.inj h.rows).2⟩

theorem Fit.to {a Ws b : List (Blk R)} (h : Fit a Ws b) (ha : a ≠ []) :
    FitTo a Ws b (leftEnd a, leftEnd Ws, leftEnd b) (rightEnd a, rightEnd Ws, rightEnd b) := by
  induction a generalizing Ws b with
  | nil => exact absurd rfl ha
  | cons A a ih =>
    obtain ⟨hl1, hl2⟩ := Fit.lengths h
    match Ws, b, hl1, hl2 with
    | W :: Ws, B :: b, hl1, hl2 =>
    have hA := dims3 (h.ket.1 A.dims (by simp))
    have hB := dims3 (h.bra.1 B.dims (by simp))
    have hW := dims4 (h.op.1 W.dims (by simp))
    have hc := (List.cons.inj h.cols).1
    have hr := (List.cons.inj h.rows).1
    simp only at hc hr
    refine FitTo.cons (s := A.dims.getD 1 0) (t := B.dims.getD 1 0) (n' := A.dims.getD 2 0) (m' := W.dims.getD 2 0)
      (p' := B.dims.getD 2 0) hA ?_ hB ?_
    · rw [hc, hr]; exact hW
    · match a, Ws, b, hl1, hl2, h with
      | [], [], [], _, _, _ => exact FitTo.nil _
      | A' :: a, W' :: Ws, B' :: b, _, _, h =>
        have := ih (Fit.tail h) (by simp)
        rw [rightEnd_cons, rightEnd_cons, rightEnd_cons]
        have e : ∀ (X : Blk R) (x : List (Blk R)), leftEnd (X :: x) = X.dims.getD 0 0 := fun X x => rfl
        rw [e, e, e, Linked_next h.ket (by omega), Linked_next h.op (by omega), Linked_next h.bra (by omega)] at this
        exact this

variable [CommSemiring R] [StarRing R]

theorem contractLoop_ok {a Ws b : List (Blk R)} {N M : Cut} (h : FitTo a Ws b N M) (L : Blk R)
    (hL : L.dims = [N.1, N.2.1, N.2.2]) :
    ∃ L', contractLoop star a b Ws L = .ok L' ∧ L'.dims = [M.1, M.2.1, M.2.2] ∧
      ∀ Z ∈ cuts M.1 M.2.1 M.2.2, at3 L' Z = ∑ X ∈ cuts N.1 N.2.1 N.2.2, at3 L X * chainKern a Ws b X Z := by
  induction h generalizing L with
  | nil N =>
    refine ⟨L, rfl, hL, fun Z hZ => ?_⟩
    rw [sum_eq_single Z]
    · rw [chainKern_nil, if_pos rfl, mul_one]
    · intro X _ hX; rw [chainKern_nil, if_neg hX, mul_zero]
    · intro h; exact absurd hZ h
  | @cons A W B a Ws b N M s t n' m' p' hA hW hB _ ih =>
    obtain ⟨L1, h1, h2, h3⟩ := envLeft_ok hL hA hW hB
    obtain ⟨L2, h4, h5, h6⟩ := ih L1 h2
    refine ⟨L2, ?_, h5, fun Z hZ => ?_⟩
    · simp only [contractLoop, bind, Except.bind, h1, h4]
    · rw [h6 Z hZ]
      simp only [h3, chainKern_cons, hA, hW, hB, sum_mul, mul_sum]
      rw [sum_comm]
      refine sum_congr rfl fun X _ => sum_congr rfl fun Y _ => ?_
      rw [mul_assoc]

/-! ### Without operator -/

theorem overlap_nil (l l' r r' : Nat) :
    overlap ([] : List (Blk R)) [] l l' r r' = (if l = r then 1 else 0) * (if l' = r' then 1 else 0) := by
  simp only [overlap, phys, List.map_nil, sum_configs_nil, amp]
  by_cases h1 : l = r <;> by_cases h3 : l' = r' <;> simp [h1, h3]

theorem overlap_cons (A B : Blk R) (a b : List (Blk R)) (l l' r r' : Nat) :
    overlap (A :: a) (B :: b) l l' r r' = ∑ k ∈ range (A.dims.getD 2 0), ∑ k' ∈ range (B.dims.getD 2 0),
      (∑ s ∈ range (A.dims.getD 1 0), A.f [l, s, k] * star (B.f [l', s, k'])) * overlap a b k k' r r' := by
  simp only [overlap, phys, List.map_cons, sum_configs_cons', amp, star_sum, sum_mul, mul_sum, star_mul']
  simp only [sum_sigma']
  refine sum_nbij' (fun ⟨s, σ, k', k⟩ => ⟨k, k', σ, s⟩) (fun ⟨k, k', σ, s⟩ => ⟨s, σ, k', k⟩) ?_ ?_ ?_ ?_ ?_
  · rintro ⟨s, σ, k', k⟩ hq
    simp only [mem_sigma, mem_range] at hq ⊢
    tauto
  · rintro ⟨k, k', σ, s⟩ hq
    simp only [mem_sigma, mem_range] at hq ⊢
    tauto
  · rintro ⟨s, σ, k', k⟩ _; rfl
  · rintro ⟨k, k', σ, s⟩ _; rfl
  · rintro ⟨s, σ, k', k⟩ _
    simp only
    ring

theorem normStep_ok {L A B : Blk R} {n p s n' p' : Nat} (hL : L.dims = [n, p]) (hA : A.dims = [n, s, n'])
    (hB : B.dims = [p, s, p']) :
    ∃ t L', tdot L A [0] [0] = .ok t ∧ tdot t (conjBlk star B) [0, 1] [0, 1] = .ok L' ∧ L'.dims = [n', p'] ∧
      ∀ k k', L'.f [k, k'] = ∑ l ∈ range n, ∑ l' ∈ range p, L.f [l, l'] * ∑ i ∈ range s, A.f [l, i, k] * star (B.f [l', i, k']) := by
  obtain ⟨Ld, Lf⟩ := L
  obtain ⟨Ad, Af⟩ := A
  obtain ⟨Bd, Bf⟩ := B
  simp only at hL hA hB
  subst hL hA hB
  refine ⟨_, _, by simp [tdot, others, List.range, List.range.loop]; rfl, by simp [tdot, conjBlk, others, List.range, List.range.loop]; rfl, rfl, ?_⟩
  intro k k'
  simp only [sum_configs_cons', sum_configs_nil, sum_mul, mul_sum]
  simp only [sum_sigma']
  refine sum_nbij' (fun ⟨l', i, l⟩ => ⟨l, l', i⟩) (fun ⟨l, l', i⟩ => ⟨l', i, l⟩) ?_ ?_ ?_ ?_ ?_
  · rintro ⟨l', i, l⟩ hq
    simp only [mem_sigma, mem_range] at hq ⊢
    tauto
  · rintro ⟨l, l', i⟩ hq
    simp only [mem_sigma, mem_range] at hq ⊢
    tauto
  · rintro ⟨l', i, l⟩ _; rfl
  · rintro ⟨l, l', i⟩ _; rfl
  · rintro ⟨l', i, l⟩ _
    show Lf [l, l'] * Af [l, i, k] * star (Bf [l', i, k']) = Lf [l, l'] * (Af [l, i, k] * star (Bf [l', i, k']))
    ring

/-- Two chains that fit, with the sizes of their ends. -/
inductive FitTo2 : List (Blk R) → List (Blk R) → Nat × Nat → Nat × Nat → Prop
  | nil (N : Nat × Nat) : FitTo2 [] [] N N
  | cons {A B a b N M s n' p'} : A.dims = [N.1, s, n'] → B.dims = [N.2, s, p'] →
      FitTo2 a b (n', p') M → FitTo2 (A :: a) (B :: b) N M

omit [CommSemiring R] [StarRing R] in
theorem fitTo2 {a b : List (Blk R)} (h1 : Linked 3 (a.map Blk.dims)) (h2 : Linked 3 (b.map Blk.dims)) (hp : phys a = phys b)
    (ha : a ≠ []) : FitTo2 a b (leftEnd a, leftEnd b) (rightEnd a, rightEnd b) := by
  induction a generalizing b with
  | nil => exact absurd rfl ha
  | cons A a ih =>
    match b, hp, h2 with
    | B :: b, hp, h2 =>
    have hA := dims3 (h1.1 A.dims (by simp))
    have hB := dims3 (h2.1 B.dims (by simp))
    have hc := (List.cons.inj hp).1
    simp only at hc
    refine FitTo2.cons (s := A.dims.getD 1 0) (n' := A.dims.getD 2 0) (p' := B.dims.getD 2 0) hA ?_ ?_
    · rw [hc]; exact hB
    · have hl := congrArg List.length (List.cons.inj hp).2
      simp only [List.length_map] at hl
      match a, b, hl, hp, h1, h2 with
      | [], [], _, _, _, _ => exact FitTo2.nil _
      | A' :: a, B' :: b, _, hp, h1, h2 =>
        have := ih (Linked_tail h1) (Linked_tail h2) (List.cons.inj hp).2 (by simp)
        rw [rightEnd_cons, rightEnd_cons]
        have e : ∀ (X : Blk R) (x : List (Blk R)), leftEnd (X :: x) = X.dims.getD 0 0 := fun X x => rfl
        rw [e, e, Linked_next h1 (by omega), Linked_next h2 (by omega)] at this
        exact this

theorem normLoop_ok {a b : List (Blk R)} {N M : Nat × Nat} (h : FitTo2 a b N M) (L : Blk R) (hL : L.dims = [N.1, N.2]) :
    ∃ L', normLoop star a b L = .ok L' ∧ L'.dims = [M.1, M.2] ∧
      ∀ r r', r < M.1 → r' < M.2 →
        L'.f [r, r'] = ∑ l ∈ range N.1, ∑ l' ∈ range N.2, L.f [l, l'] * overlap a b l l' r r' := by
  induction h generalizing L with
  | nil N =>
    refine ⟨L, rfl, hL, fun r r' hr hr' => ?_⟩
    rw [sum_eq_single r, sum_eq_single r']
    · simp [overlap_nil]
    · intro x _ hx; simp [overlap_nil, hx]
    · intro h; exact absurd (mem_range.2 hr') h
    · intro x _ hx; exact sum_eq_zero fun y _ => by simp [overlap_nil, hx]
    · intro h; exact absurd (mem_range.2 hr) h
  | @cons A B a b N M s n' p' hA hB _ ih =>
    obtain ⟨t, L1, h0, h1, h2, h3⟩ := normStep_ok hL hA hB
    obtain ⟨L2, h4, h5, h6⟩ := ih L1 h2
    refine ⟨L2, ?_, h5, fun r r' hr hr' => ?_⟩
    · simp only [normLoop, bind, Except.bind, h0, h1, h4]
    · rw [h6 r r' hr hr']
      simp only [h3, overlap_cons, hA, hB, sum_mul]
      have e : ∀ l l', L.f [l, l'] * ∑ k ∈ range ([N.1, s, n'].getD 2 0), ∑ k' ∈ range ([N.2, s, p'].getD 2 0),
          ∑ i ∈ range ([N.1, s, n'].getD 1 0), A.f [l, i, k] * star (B.f [l', i, k']) * overlap a b k k' r r'
          = ∑ k ∈ range n', ∑ k' ∈ range p', L.f [l, l'] * (∑ i ∈ range s, A.f [l, i, k] * star (B.f [l', i, k'])) * overlap a b k k' r r' := by
        intro l l'
        rw [mul_sum]
        refine sum_congr rfl fun k _ => ?_
        rw [mul_sum]
        refine sum_congr rfl fun k' _ => ?_
        rw [mul_assoc, sum_mul]
        rfl
      simp only [e]
      simp only [sum_sigma']
      refine sum_nbij' (fun ⟨k, k', l, l'⟩ => ⟨l, l', k, k'⟩) (fun ⟨l, l', k, k'⟩ => ⟨k, k', l, l'⟩) ?_ ?_ ?_ ?_ ?_
      · rintro ⟨k, k', l, l'⟩ hq
        simp only [mem_sigma, mem_range] at hq ⊢
        tauto
      · rintro ⟨l, l', k, k'⟩ hq
        simp only [mem_sigma, mem_range] at hq ⊢
        tauto
      · rintro ⟨k, k', l, l'⟩ _; rfl
      · rintro ⟨l, l', k, k'⟩ _; rfl
      · rintro ⟨k, k', l, l'⟩ _; rfl

/-! ### Final contractions -/

theorem tdot3_ok {L Rt : Blk R} {n m p : Nat} (hL : L.dims = [n, m, p]) (hR : Rt.dims = [n, m, p]) :
    ∃ x, tdot L Rt [0, 1, 2] [0, 1, 2] = .ok x ∧ x.dims = [] ∧ x.f [] = ∑ Z ∈ cuts n m p, at3 L Z * at3 Rt Z := by
  obtain ⟨Ld, Lf⟩ := L
  obtain ⟨Rd, Rf⟩ := Rt
  simp only at hL hR
  subst hL hR
  refine ⟨_, by simp [tdot, others, List.range, List.range.loop]; rfl, rfl, ?_⟩
  simp only [sum_configs_cons', sum_configs_nil, sum_cuts]
  rfl

theorem tdot2_ok {L Rt : Blk R} {n p : Nat} (hL : L.dims = [n, p]) (hR : Rt.dims = [n, p]) :
    ∃ x, tdot L Rt [0, 1] [0, 1] = .ok x ∧ x.dims = [] ∧
      x.f [] = ∑ r ∈ range n, ∑ r' ∈ range p, L.f [r, r'] * Rt.f [r, r'] := by
  obtain ⟨Ld, Lf⟩ := L
  obtain ⟨Rd, Rf⟩ := Rt
  simp only at hL hR
  subst hL hR
  refine ⟨_, by simp [tdot, others, List.range, List.range.loop]; rfl, rfl, ?_⟩
  simp only [sum_configs_cons', sum_configs_nil]
  rfl

end MP
end QuantiT
