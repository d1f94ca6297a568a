import Verif.Spec.Fair

/-! # Specification: trackers are asked again and again -/

namespace Nargun.Spec

open Nargun Program

/-- The network and the clock go on for the task of tracker `i`: a request that was begun is sent or fails, one that was sent
is answered or fails (there is a timeout), and every pause ends. So no wait lasts for ever. -/
def WaitsEnd (σ : Nat → Program.State) (i : Nat) : Prop :=
  ∀ n t, (σ n).trackers[i]? = some t → t.phase ≠ .exited →
    ∃ m t', n ≤ m ∧ (σ m).trackers[i]? = some t' ∧ t'.phase ≠ t.phase

/-- Between the moment `m` and the next, a request for this announce is sent to tracker `i`. -/
def SentAt (σ : Nat → Program.State) (i m : Nat) (a : Announce) : Prop :=
  ∃ t t', (σ m).trackers[i]? = some t ∧ (σ (m + 1)).trackers[i]? = some t' ∧ t'.log = t.log ++ [.sent a]

/-- Between the moment `m` and the next, a request to tracker `i` fails that had not been sent: there is no connection. -/
def UnsentAt (σ : Nat → Program.State) (i m : Nat) : Prop :=
  ∃ t t', (σ m).trackers[i]? = some t ∧ t.phase = .calling ∧ (σ (m + 1)).trackers[i]? = some t' ∧ t'.log = t.log ++ [.failed]

end Nargun.Spec
