import Verif.Spec.BTensor
/-
Fixing the positions of some dimensions of a block tensor: -1 keeps a dimension, any other number is the position
it is fixed at.
-/
namespace QuantiT.Spec
variable {G R : Type}

/-- One entry per dimension, -1 or an existing position. -/
def Picks (sh : Shape G) (dims : List Int) : Prop :=
  List.Forall₂ (fun d a => a = -1 ∨ (0 ≤ a ∧ a < (dimSize d : Int))) sh dims

/-- The dimensions that are kept, in order. -/
def kept : Shape G → List Int → Shape G
  | d :: ds, a :: as => if a = -1 then d :: kept ds as else kept ds as
  | _, _ => []

/-- The multi-index with the fixed positions and, in order, the components of `e` elsewhere. -/
def insertFixed : List Int → List Nat → List Nat
  | [], _ => []
  | a :: as, es =>
    if a = -1 then
      match es with
      | [] => []
      | e :: es => e :: insertFixed as es
    else a.toNat :: insertFixed as es

/-- Charge of the section containing an element. -/
def chargeAt [Zero G] (d : Dim G) (e : Nat) : G :=
  match locate d e with
  | none => 0
  | some p =>
    match d[p.1]? with
    | none => 0
    | some s => s.2

/-- Total charge of the sections of the fixed positions. -/
def fixedCharge [AddCommMonoid G] : Shape G → List Int → G
  | d :: ds, a :: as => (if a = -1 then 0 else chargeAt d a.toNat) + fixedCharge ds as
  | _, _ => 0

/-- The shape with every fixed dimension replaced by one section of size 1 with the charge of the fixed position. -/
def pinned [Zero G] : Shape G → List Int → Shape G
  | d :: ds, a :: as => (if a = -1 then d else [(1, chargeAt d a.toNat)]) :: pinned ds as
  | _, _ => []

/-- The same entries with position 0 in place of every fixed position. -/
def zeroed (dims : List Int) : List Int := dims.map fun a => if a = -1 then -1 else 0

/-- The sections with inverse charges. -/
def flipped [Neg G] (d : Dim G) : Dim G := d.map fun s => (s.1, -s.2)

/-- In the fixed dimensions that come after the last kept one, every stored block lies in the section of the fixed
position. -/
def TrailingAgree (sh : Shape G) (dims : List Int) (blocks : List (List Nat × Blk R)) : Prop :=
  ∀ kb ∈ blocks, ∀ (i : Nat) (d : Dim G) (a : Int), sh[i]? = some d → dims[i]? = some a →
    (∀ j, i ≤ j → dims[j]? ≠ some (-1)) → (locate d a.toNat).map Prod.fst = kb.1[i]?

end QuantiT.Spec
