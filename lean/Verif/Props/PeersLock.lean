import Verif.Props.Peers

/-! # The lock of the table of peers is never poisoned: C150 -/

namespace Nargun

open Spec Peers

theorem pass_length (st : Status) (n : Nat) (m : Map Peer Status) : (pass st n m).2.length ≤ n := by
  induction m generalizing n with
  | nil => simp [pass]
  | cons e m ih =>
    obtain ⟨p, s⟩ := e
    cases n with
    | zero => simp [pass]
    | succ n =>
      simp only [pass]
      split
      · have := ih n
        simp only [List.length_cons]; omega
      · exact ih (n + 1)

theorem activateChecked_eq (limit : Nat) (order : List Status) (acc : List Peer) (m : Map Peer Status)
    (h : acc.length ≤ limit) : activateChecked limit order acc m = .ok (activate limit order acc m) := by
  induction order generalizing acc m with
  | nil => rfl
  | cons st order ih =>
    simp only [activateChecked, activate, usub, if_pos h, Res.ok_bind]
    refine ih _ _ ?_
    have := pass_length st (limit - acc.length) m
    rw [List.length_append]; omega

/-- C150: no call on the shared table of peers panics, whatever the table holds, whatever the limit and whatever is reported;
so no task poisons its lock, and the call does what the call of `Peers.Step` does. -/
theorem C150_never_poisoned (s : Peers) (op : Op) : ∃ s', op.checked s = .ok s' ∧ Step s op s' := by
  cases op with
  | insert p => exact ⟨_, rfl, .insert⟩
  | extend ps => exact ⟨_, rfl, .extend⟩
  | good limit =>
    refine ⟨_, ?_, .good⟩
    simp only [Op.checked, activateChecked_eq _ _ [] _ (Nat.zero_le _), Res.ok_bind, getGoodPeers]
  | enough =>
    refine ⟨_, ?_, .enough⟩
    simp only [Op.checked, activateChecked_eq _ _ [] _ (Nat.zero_le _), Res.ok_bind, getGoodPeers, enoughPeers]
  | batch bad limit =>
    refine ⟨_, ?_, .batch⟩
    simp only [Op.checked, activateChecked_eq _ _ [] _ (Nat.zero_le _), Res.ok_bind, returnBatch]
  | reorder => exact ⟨s, rfl, .reorder (List.Perm.refl _)⟩

/-- C150: nor does a batch have more peers than were asked for. -/
theorem C150_limit (s : Peers) (bad : List (Peer × Status)) (limit : Nat) : (s.returnBatch bad limit).2.length ≤ limit := by
  have key : ∀ (order : List Status) (acc : List Peer) (m : Map Peer Status), acc.length ≤ limit →
      (activate limit order acc m).2.length ≤ limit := by
    intro order
    induction order with
    | nil => exact fun _ _ h => h
    | cons st order ih =>
      intro acc m h
      refine ih _ _ ?_
      have := pass_length st (limit - acc.length) m
      rw [List.length_append]; omega
  exact key _ [] _ (Nat.zero_le _)

/-- There is something to show: a table that had already collected more than the limit would panic. -/
example : activateChecked 0 batchOrder [peerA] [] = .panic := by decide +kernel

/-- A call that reaches its limit before the last status. -/
example : (Op.checked (Peers.new (ID.mk (List.replicate 20 0#8) (by decide))) (.extend [peerA])).bind
    (fun s => (Op.batch [] 1).checked s) = .ok ⟨ID.mk (List.replicate 20 0#8) (by decide), [(peerA, .active)]⟩ := by
  decide +kernel

end Nargun
