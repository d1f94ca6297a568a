import Verif.Model.Interval

/-! # Vocabulary for the pauses between periodic tasks -/

namespace Nargun.Spec

open Nargun

/-- The pause of a call, whether it was completed or given up. -/
def pauseOf : Interval.Tick → Rat
  | .slept d => d
  | .dropped d => d

/-- How many calls were completed. -/
def completed (h : List Interval.Tick) : Nat :=
  h.countP fun e => match e with
    | .slept _ => true
    | .dropped _ => false

/-- `d` is the smaller one of `a` and `b`. -/
def IsMin (d a b : Rat) : Prop := (d = a ∨ d = b) ∧ d ≤ a ∧ d ≤ b

end Nargun.Spec
