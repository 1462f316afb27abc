import Verif.Spec.Quantity
namespace QuantiT
open Spec

theorem u16_of_range {x : Int} (h0 : 0 ≤ x) (h1 : x < 65536) : (u16 x : Int) = x := by
  unfold u16; omega

namespace CN
variable {N : Nat}

theorem ext' {a b : CN N} (h : a.val = b.val) : a = b := by cases a; cases b; simp_all

theorem opCond_false {a b : CN N} (ha : a.val < N) (hN : N < 65536) : opCond a b false = a := by
  apply ext'; simp only [opCond, u16]; simp; split <;> omega

theorem op_val {a b : CN N} (hN : N ≤ 32768) (ha : a.val < N) (hb : b.val < N) :
    (op a b).val = (a.val + b.val) % N := by
  simp only [op, opCond, u16]
  simp only [if_true, Int.one_mul]
  have h1 : ((a.val : Int) + (b.val : Int)) % 65536 = a.val + b.val := by omega
  rw [h1]
  by_cases hge : a.val + b.val ≥ N
  · rw [Nat.mod_eq_sub_mod hge, Nat.mod_eq_of_lt (by omega)]
    rw [if_pos (by omega)]; omega
  · rw [Nat.mod_eq_of_lt (by omega)]
    rw [if_neg (by omega)]; omega

theorem op_lt {a b : CN N} (hN : N ≤ 32768) (ha : a.val < N) (hb : b.val < N) : (op a b).val < N := by
  rw [op_val hN ha hb]; exact Nat.mod_lt _ (by omega)

theorem inverse_val {a : CN N} (hN : N < 65536) (ha : a.val < N) :
    ((inverse a).val : Int) = (-(a.val : Int)) % N := by
  simp only [inverse]
  by_cases h : a.val = 0
  · simp [h, u16]
  · rw [u16_of_range (by simp [h]; omega) (by simp [h]; omega)]
    simp only [ne_eq, h, not_false_eq_true, if_true, Int.one_mul]
    rw [← Int.add_emod_right, Int.emod_eq_of_lt] <;> omega

theorem inverse_lt {a : CN N} (hN : N < 65536) (ha : a.val < N) : (inverse a).val < N := by
  have := inverse_val hN ha
  have h2 := Int.emod_lt_of_pos (-(a.val : Int)) (show (0 : Int) < N by omega)
  omega

theorem op_comm {a b : CN N} (hN : N ≤ 32768) (ha : a.val < N) (hb : b.val < N) : op a b = op b a := by
  apply ext'; rw [op_val hN ha hb, op_val hN hb ha, Nat.add_comm]

theorem op_assoc {a b c : CN N} (hN : N ≤ 32768) (ha : a.val < N) (hb : b.val < N) (hc : c.val < N) :
    op (op a b) c = op a (op b c) := by
  apply ext'
  rw [op_val hN (op_lt hN ha hb) hc, op_val hN ha (op_lt hN hb hc), op_val hN ha hb, op_val hN hb hc]
  simp [Nat.add_assoc]

theorem op_neutral {a : CN N} (hN : N ≤ 32768) (ha : a.val < N) : op a neutral = a := by
  apply ext'
  rw [op_val hN ha (show (neutral : CN N).val < N by simp only [neutral]; omega)]
  simp only [neutral, Nat.add_zero]; exact Nat.mod_eq_of_lt ha

theorem op_inverse {a : CN N} (hN : N ≤ 32768) (ha : a.val < N) : op a (inverse a) = neutral := by
  apply ext'
  rw [op_val hN ha (inverse_lt (by omega) ha)]
  have := inverse_val (by omega : N < 65536) ha
  have h3 : (((a.val + (inverse a).val) % N : Nat) : Int) = 0 := by
    push_cast; rw [this]; simp [Int.add_right_neg]
  simp only [neutral]; omega

end CN

namespace ZQ

theorem ext' {a b : ZQ} (h : a.val = b.val) : a = b := by cases a; cases b; simp_all

theorem i16_range (x : Int) : -32768 ≤ i16 x ∧ i16 x ≤ 32767 := by
  unfold i16 Int.bmod; simp only []; split <;> omega

theorem i16_id {x : Int} (h0 : -32768 ≤ x) (h1 : x ≤ 32767) : i16 x = x := by
  unfold i16 Int.bmod; simp only []; split <;> omega

theorem op_val (a b : ZQ) : (op a b).val = Int.bmod (a.val + b.val) 65536 := by
  simp [op, opCond, i16]

theorem op_comm (a b : ZQ) : op a b = op b a := by
  apply ext'; rw [op_val, op_val, Int.add_comm]

theorem op_assoc (a b c : ZQ) : op (op a b) c = op a (op b c) := by
  apply ext'; simp only [op_val]; simp [Int.add_assoc]

theorem op_neutral {a : ZQ} (h : -32768 ≤ a.val ∧ a.val ≤ 32767) : op a neutral = a := by
  apply ext'; rw [op_val]; simp only [neutral, Int.add_zero]; exact i16_id h.1 h.2

theorem op_inverse (a : ZQ) : op a (inverse a) = neutral := by
  apply ext'; rw [op_val]
  simp [inverse, i16, neutral, Int.add_right_neg]

theorem opCond_false {a b : ZQ} (h : -32768 ≤ a.val ∧ a.val ≤ 32767) : opCond a b false = a := by
  apply ext'; simp [opCond]; exact i16_id h.1 h.2

end ZQ

namespace Comp

theorem type_opCond (a b : Comp) (k : Bool) : (opCond a b k).type = a.type := by
  cases a <;> cases b <;> simp only [opCond]
  · rfl
  · split <;> rfl

theorem type_inverse (a : Comp) : a.inverse.type = a.type := by cases a <;> rfl

theorem type_neutralOf (g : GrpType) : (neutralOf g).type = g := by cases g <;> rfl

theorem eq_of_val {a b : Comp} (ht : a.type = b.type) (hv : a.getVal = b.getVal) : a = b := by
  cases a <;> cases b <;> simp [type, getVal] at *
  · exact ZQ.ext' hv
  · subst ht; exact ⟨rfl, heq_of_eq (CN.ext' (by omega))⟩

theorem opCond_getVal {a b : Comp} (ht : a.type = b.type) (ha : CompValid a) (hb : CompValid b) :
    (opCond a b true).getVal = compose a.type a.getVal b.getVal := by
  cases a <;> cases b <;> simp [type] at ht
  · exact ZQ.op_val _ _
  · subst ht
    simp only [opCond, getVal, compose, type, dite_true]
    have := CN.op_val ha.2.1 ha.2.2 hb.2.2
    simp only [CN.op] at this
    rw [this]; push_cast; rfl

theorem opCond_valid {a b : Comp} (ht : a.type = b.type) (ha : CompValid a) (hb : CompValid b) :
    CompValid (opCond a b true) := by
  cases a <;> cases b <;> simp [type] at ht
  · exact ZQ.i16_range _
  · subst ht
    simp only [opCond, dite_true]
    exact ⟨ha.1, ha.2.1, CN.op_lt ha.2.1 ha.2.2 hb.2.2⟩

theorem inverse_getVal {a : Comp} (ha : CompValid a) : a.inverse.getVal = invert a.type a.getVal := by
  cases a with
  | z q => rfl
  | c N q =>
    simp only [inverse, getVal, invert, type]
    have h := ha.2.1
    exact CN.inverse_val (by omega) ha.2.2

theorem inverse_valid {a : Comp} (ha : CompValid a) : CompValid a.inverse := by
  cases a with
  | z q => exact ZQ.i16_range _
  | c N q =>
    have h := ha.2.1
    exact ⟨ha.1, ha.2.1, CN.inverse_lt (by omega) ha.2.2⟩

theorem neutralOf_valid {a : Comp} (ha : CompValid a) : CompValid (neutralOf a.type) := by
  cases a with
  | z q => simp [neutralOf, type, CompValid, ZQ.neutral]
  | c N q => exact ⟨ha.1, ha.2.1, ha.1⟩

theorem op_comm {a b : Comp} (ht : a.type = b.type) (ha : CompValid a) (hb : CompValid b) :
    opCond a b true = opCond b a true := by
  apply eq_of_val
  · rw [type_opCond, type_opCond, ht]
  · rw [opCond_getVal ht ha hb, opCond_getVal ht.symm hb ha, ht]
    cases b.type <;> simp [compose, Int.add_comm]

theorem op_assoc {a b c : Comp} (h1 : a.type = b.type) (h2 : b.type = c.type)
    (ha : CompValid a) (hb : CompValid b) (hc : CompValid c) :
    opCond (opCond a b true) c true = opCond a (opCond b c true) true := by
  apply eq_of_val
  · simp only [type_opCond]
  · have hab := opCond_valid h1 ha hb
    have hbc := opCond_valid h2 hb hc
    rw [opCond_getVal (by rw [type_opCond, h1, h2]) hab hc,
        opCond_getVal (by rw [type_opCond, h1]) ha hbc,
        opCond_getVal h1 ha hb, opCond_getVal h2 hb hc, type_opCond, ← h1]
    cases a.type <;> simp [compose, Int.add_assoc]

theorem op_neutral {a : Comp} (ha : CompValid a) : opCond a (neutralOf a.type) true = a := by
  cases a with
  | z q => simp only [type, neutralOf, opCond]; congr 1; exact ZQ.op_neutral ha
  | c N q => simp only [type, neutralOf, opCond, dite_true]; congr 1; exact CN.op_neutral ha.2.1 ha.2.2

theorem op_inverse {a : Comp} (ha : CompValid a) : opCond a a.inverse true = neutralOf a.type := by
  cases a with
  | z q => simp only [type, neutralOf, opCond, inverse]; congr 1; exact ZQ.op_inverse q
  | c N q =>
    simp only [type, neutralOf, opCond, dite_true, inverse]; congr 1; exact CN.op_inverse ha.2.1 ha.2.2

theorem opCond_false {a b : Comp} (ha : CompValid a) : opCond a b false = a := by
  cases a <;> cases b <;> simp only [opCond]
  · congr 1; exact ZQ.opCond_false ha
  · have := ha.2.1
    split
    · congr 1; exact CN.opCond_false ha.2.2 (by omega)
    · rfl

end Comp

namespace Quantity

/-- The value part of composition. -/
def opL (a b : Quantity) : Quantity := List.zipWith (fun x y => Comp.opCond x y true) a b

theorem op_ok {a b : Quantity} (h : a.type = b.type) : op a b = .ok (opL a b) := by
  simp [op, opCond, cast, h, opL]

theorem op_bad {a b : Quantity} (h : a.type ≠ b.type) : op a b = Res.throw .badCast := by
  simp [op, opCond, cast, h]

theorem cons_type {x : Comp} {a : Quantity} : type (x :: a) = x.type :: type a := rfl

theorem type_opL : ∀ {a b : Quantity}, a.type = b.type → (opL a b).type = a.type
  | [], [], _ => rfl
  | x :: a, y :: b, h => by
    simp only [cons_type, List.cons.injEq] at h
    simp only [opL, List.zipWith_cons_cons, cons_type, Comp.type_opCond]
    rw [← type_opL h.2]; rfl
  | [], _ :: _, h => by simp [type] at h
  | _ :: _, [], h => by simp [type] at h

theorem valid_cons {x : Comp} {a : Quantity} : QValid (x :: a) ↔ CompValid x ∧ QValid a := by
  simp [QValid]

theorem valid_opL : ∀ {a b : Quantity}, a.type = b.type → QValid a → QValid b → QValid (opL a b)
  | [], [], _, _, _ => by simp [opL, QValid]
  | x :: a, y :: b, h, ha, hb => by
    simp only [cons_type, List.cons.injEq] at h
    rw [valid_cons] at ha hb
    simp only [opL, List.zipWith_cons_cons]; rw [valid_cons]
    exact ⟨Comp.opCond_valid h.1 ha.1 hb.1, valid_opL h.2 ha.2 hb.2⟩
  | [], _ :: _, h, _, _ => by simp [type] at h
  | _ :: _, [], h, _, _ => by simp [type] at h

theorem type_inverse (a : Quantity) : (inverse a).type = a.type := by
  simp [inverse, type, Comp.type_inverse]

theorem valid_inverse {a : Quantity} (h : QValid a) : QValid (inverse a) := by
  intro x hx; simp only [inverse, List.mem_map] at hx
  obtain ⟨y, hy, rfl⟩ := hx; exact Comp.inverse_valid (h y hy)

theorem type_neutral (a : Quantity) : (neutral a).type = a.type := by
  simp [neutral, type, Comp.type_neutralOf]

theorem valid_neutral {a : Quantity} (h : QValid a) : QValid (neutral a) := by
  intro x hx; simp only [neutral, type, List.map_map, List.mem_map, Function.comp] at hx
  obtain ⟨y, hy, rfl⟩ := hx; exact Comp.neutralOf_valid (h y hy)

theorem opL_comm : ∀ {a b : Quantity}, a.type = b.type → QValid a → QValid b → opL a b = opL b a
  | [], [], _, _, _ => rfl
  | x :: a, y :: b, h, ha, hb => by
    simp only [cons_type, List.cons.injEq] at h
    rw [valid_cons] at ha hb
    simp only [opL, List.zipWith_cons_cons, List.cons.injEq]
    exact ⟨Comp.op_comm h.1 ha.1 hb.1, opL_comm h.2 ha.2 hb.2⟩
  | [], _ :: _, h, _, _ => by simp [type] at h
  | _ :: _, [], h, _, _ => by simp [type] at h

theorem opL_assoc : ∀ {a b c : Quantity}, a.type = b.type → b.type = c.type →
    QValid a → QValid b → QValid c → opL (opL a b) c = opL a (opL b c)
  | [], [], [], _, _, _, _, _ => rfl
  | x :: a, y :: b, z :: c, h, h', ha, hb, hc => by
    simp only [cons_type, List.cons.injEq] at h h'
    rw [valid_cons] at ha hb hc
    simp only [opL, List.zipWith_cons_cons, List.cons.injEq]
    exact ⟨Comp.op_assoc h.1 h'.1 ha.1 hb.1 hc.1, opL_assoc h.2 h'.2 ha.2 hb.2 hc.2⟩
  | [], _ :: _, _, h, _, _, _, _ => by simp [type] at h
  | _ :: _, [], _, h, _, _, _, _ => by simp [type] at h
  | _, [], _ :: _, _, h, _, _, _ => by simp [type] at h
  | _, _ :: _, [], _, h, _, _, _ => by simp [type] at h

theorem opL_neutral : ∀ {a : Quantity}, QValid a → opL a (neutral a) = a
  | [], _ => rfl
  | x :: a, ha => by
    rw [valid_cons] at ha
    simp only [opL, neutral, cons_type, List.map_cons, List.zipWith_cons_cons, List.cons.injEq]
    exact ⟨Comp.op_neutral ha.1, opL_neutral ha.2⟩

theorem opL_inverse : ∀ {a : Quantity}, QValid a → opL a (inverse a) = neutral a
  | [], _ => rfl
  | x :: a, ha => by
    rw [valid_cons] at ha
    simp only [opL, neutral, inverse, cons_type, List.map_cons, List.zipWith_cons_cons, List.cons.injEq]
    exact ⟨Comp.op_inverse ha.1, opL_inverse ha.2⟩

theorem ltTuple_iff : ∀ (a b : Quantity), ltTuple a b = true ↔ lexLt (a.map Comp.getVal) (b.map Comp.getVal)
  | [], b => by cases b <;> simp [ltTuple, lexLt]
  | _ :: _, [] => by simp [ltTuple, lexLt]
  | x :: a, y :: b => by
    simp only [ltTuple, Comp.lt, List.map_cons, lexLt, decide_eq_true_eq]
    rw [← ltTuple_iff a b]
    by_cases h1 : x.getVal < y.getVal
    · simp [h1]
    · by_cases h2 : y.getVal < x.getVal
      · simp [h1, h2]; omega
      · simp [h1, h2]; intro; omega

theorem eq_of_vals : ∀ {a b : Quantity}, a.type = b.type → a.map Comp.getVal = b.map Comp.getVal → a = b
  | [], [], _, _ => rfl
  | x :: a, y :: b, h, hv => by
    simp only [cons_type, List.cons.injEq, List.map_cons] at h hv
    rw [Comp.eq_of_val h.1 hv.1, eq_of_vals h.2 hv.2]
  | [], _ :: _, h, _ => by simp [type] at h
  | _ :: _, [], h, _ => by simp [type] at h

end Quantity

theorem lexLt_irrefl : ∀ l, ¬ lexLt l l
  | [] => by simp [lexLt]
  | x :: l => by simp [lexLt, lexLt_irrefl l]

theorem lexLt_trans : ∀ {a b c}, lexLt a b → lexLt b c → lexLt a c
  | x :: a, y :: b, z :: c, h1, h2 => by
    simp only [lexLt] at *
    rcases h1 with h1 | ⟨rfl, h1⟩ <;> rcases h2 with h2 | ⟨rfl, h2⟩
    · left; omega
    · left; exact h1
    · left; exact h2
    · right; exact ⟨rfl, lexLt_trans h1 h2⟩
  | [], _, _, h, _ => by simp [lexLt] at h
  | _ :: _, [], _, h, _ => by simp [lexLt] at h
  | _ :: _, _ :: _, [], _, h => by simp [lexLt] at h

theorem lexLt_total : ∀ {a b : List Int}, a.length = b.length → lexLt a b ∨ a = b ∨ lexLt b a
  | [], [], _ => by simp
  | x :: a, y :: b, h => by
    simp only [lexLt, List.cons.injEq]
    rcases Int.lt_trichotomy x y with h1 | h1 | h1
    · simp [h1]
    · subst h1
      rcases lexLt_total (a := a) (b := b) (by simpa using h) with h2 | h2 | h2 <;> simp [h2]
    · simp [h1]
  | [], _ :: _, h => by simp at h
  | _ :: _, [], h => by simp at h

/-! ### permutation of packed sections -/

theorem permuteInner_spec {α} (this : List α) (s : Nat) :
    ∀ (rep i p : Nat) (done rest : List α), p = done.length → s + i + rep ≤ this.length → rep ≤ rest.length →
      permuteInner this s rep i p (done ++ rest)
        = .ok (done ++ (this.drop (s + i)).take rep ++ rest.drop rep, p + rep)
  | 0, i, p, done, rest, _, _, _ => by simp [permuteInner]
  | rep + 1, i, p, done, rest, hp, hs, hr => by
    obtain ⟨r, rest, rfl⟩ : ∃ r rs, rest = r :: rs := by cases rest <;> simp_all
    have hlt : s + i < this.length := by omega
    simp only [permuteInner]
    rw [List.getElem?_eq_getElem hlt]
    simp only
    rw [if_pos (by simp; omega)]
    have hset : (done ++ r :: rest).set p this[s + i] = (done ++ [this[s+i]]) ++ rest := by
      subst hp; simp
    rw [hset, permuteInner_spec this s rep (i + 1) (p + 1) (done ++ [this[s+i]]) rest (by simp [hp])
      (by omega) (by simpa using hr)]
    rw [List.drop_eq_getElem_cons hlt]
    simp [List.take_succ_cons, Nat.add_assoc, Nat.add_comm]; omega

theorem flatten_drop_section {α} : ∀ (secs : List (List α)) (d : Nat) (x : List α), secs[d]? = some x →
    (secs.flatten.drop ((secs.map List.length).take d).sum).take x.length = x ∧
    ((secs.map List.length).take d).sum + x.length ≤ secs.flatten.length
  | [], d, x, h => by simp at h
  | s :: secs, 0, x, h => by
    simp at h; subst h; simp
  | s :: secs, d + 1, x, h => by
    have ih := flatten_drop_section secs d x (by simpa using h)
    simp only [List.flatten_cons, List.map_cons, List.take_succ_cons, List.sum_cons, List.length_append]
    refine ⟨?_, by omega⟩
    rw [← List.drop_drop, List.drop_left]; exact ih.1

theorem permuteOuter_spec {α} (secs : List (List α)) :
    ∀ (perm : List Nat) (permuted : List (List α)) (p : Nat) (done rest : List α),
      perm.map (fun d => secs[d]?) = permuted.map some → p = done.length →
      permuted.flatten.length ≤ rest.length →
      permuteOuter secs.flatten (secs.map List.length) perm p (done ++ rest)
        = .ok (done ++ permuted.flatten ++ rest.drop permuted.flatten.length)
  | [], permuted, p, done, rest, h, hp, hr => by
    have : permuted = [] := by simpa using h.symm
    subst this; simp [permuteOuter]
  | d :: perm, [], p, done, rest, h, hp, hr => by simp at h
  | d :: perm, x :: permuted, p, done, rest, h, hp, hr => by
    simp only [List.map_cons, List.cons.injEq] at h
    have hsec := flatten_drop_section secs d x h.1
    simp only [permuteOuter]
    have hrep : (secs.map List.length)[d]? = some x.length := by simp [h.1]
    rw [hrep]; simp only
    simp only [List.flatten_cons, List.length_append] at hr
    rw [permuteInner_spec secs.flatten _ x.length 0 p done rest hp (by omega) (by omega)]
    simp only [Nat.add_zero, hsec.1]
    rw [permuteOuter_spec secs perm permuted (p + x.length) (done ++ x) (rest.drop x.length) h.2
      (by simp [hp]) (by rw [List.length_drop]; omega)]
    simp [List.drop_drop]

end QuantiT
