import Verif.Model.Casting
import Verif.Spec.Mps
/-
What a user expects of the variables of a program with conversions between the chain types.
-/
namespace QuantiT
namespace CT
open Spec MP
variable {T : Type}

/-- Every state is empty or satisfies `S` with its center inside, every operator is empty or satisfies `O`. -/
def WellFormed (S O : List T → Prop) (s : Store T) : Prop :=
  (∀ x, (s.state x).1 = [] ∨ S (s.state x).1 ∧ ∃ c, (s.state x).2 = some c ∧ c < (s.state x).1.length) ∧ ∀ y, s.op y = [] ∨ O (s.op y)

/-- The statement builds a checked chain out of a train that is moved. -/
def Cast.movesIntoCheck : Cast T → Bool
  | .stateMove .. => true
  | .opMove .. => true
  | _ => false

/-- The statement builds a chain from a pair of iterators. -/
def Cast.isRange : Cast T → Bool
  | .stateRange .. => true
  | .opRange .. => true
  | _ => false

end CT
end QuantiT
