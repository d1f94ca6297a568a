import Verif.Model.Shutdown

/-! # Vocabulary for the shutdown signal -/

namespace Nargun.Spec

open Nargun Shutdown

/-- Receiver `r` was made: it is the first one or a clone. -/
def Made (h : List Shutdown.Event) (r : Nat) : Prop := r = 0 ∨ ∃ old, Shutdown.Event.clone old r ∈ h

/-- Receiver `r` was made and not dropped. -/
def Live (h : List Shutdown.Event) (r : Nat) : Prop := Made h r ∧ Shutdown.Event.drop r ∉ h

/-- Receiver `r` was there when the signal was given and did not notice it yet. -/
def Signalled (h : List Shutdown.Event) (r : Nat) : Prop :=
  ∃ before after, h = before ++ Shutdown.Event.send :: after ∧ Live before r ∧ Shutdown.Event.recv r ∉ after

end Nargun.Spec
