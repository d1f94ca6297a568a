import Verif.Model.Gateway
import Verif.Spec.Program

/-! # Specification of what the program does to a gateway -/

namespace Nargun.Spec

open Nargun Gateway

/-- A TCP connection to this port of the gateway reaches the port 46492 of this machine, for as long as the mapping exists,
and it does not expire. -/
def LeadsHere (t : Gateway.Table) (ip : Ipv4) (p : U16) : Prop :=
  ∃ description, t.get? (.tcp, p) = some ⟨⟨ip, 46492#16⟩, 0, description⟩

/-- A gateway that does not give a port away that is forwarded elsewhere: it opens a port that is not forwarded yet, or
one that is already forwarded to the very same place. -/
def Keeps (t : Gateway.Table) (proto : Proto) (internal : SockAddr) : Answer → Prop
  | .refused => True
  | .opened p => ∀ m, t.get? (proto, p) = some m → m.internal = internal

/-- The answers at a start are those of such a gateway. -/
def Around.Keeps (a : Around) (t : Gateway.Table) (ip : Ipv4) : Prop :=
  Spec.Keeps t .tcp ⟨ip, 46492#16⟩ a.tcp ∧ Spec.Keeps t .udp ⟨ip, 46493#16⟩ a.udp

/-- The program has been started some number of times behind a gateway, with whatever torrents, on a machine with this
address; between the starts the gateway is left alone. A program that runs does not talk to the gateway: nothing but the
start does. The numbers are those of the starts after which the program ran. -/
inductive Starts (sha1 : Bytes → ID) (utf8 : Bytes → Bool) (ip : Ipv4) (t : Gateway.Table) : Nat → Gateway.Table → Prop
  | none : Starts sha1 utf8 ip t 0 t
  | ran {n t1 t2 w m c a w' tree s0} : Starts sha1 utf8 ip t n t1 → a.localIp = .v4 ip → Around.Keeps a t1 ip →
      launchBehind sha1 utf8 w m c a t1 = (t2, w', tree, .ok s0) → Starts sha1 utf8 ip t (n + 1) t2
  | failed {n t1 t2 w m c a w' tree r} : Starts sha1 utf8 ip t n t1 → a.localIp = .v4 ip → Around.Keeps a t1 ip →
      launchBehind sha1 utf8 w m c a t1 = (t2, w', tree, r) → (∀ s0, r ≠ .ok s0) → Starts sha1 utf8 ip t n t2

/-- Every port that the starts opened was free before. -/
inductive FreshStarts (sha1 : Bytes → ID) (utf8 : Bytes → Bool) (t : Gateway.Table) : Nat → Gateway.Table → Prop
  | none : FreshStarts sha1 utf8 t 0 t
  | ran {n t1 t2 w m c a w' tree s0} : FreshStarts sha1 utf8 t n t1 →
      (∀ p, a.tcp = .opened p → t1.get? (.tcp, p) = none) → (∀ p, a.udp = .opened p → t1.get? (.udp, p) = none) →
      launchBehind sha1 utf8 w m c a t1 = (t2, w', tree, .ok s0) → FreshStarts sha1 utf8 t (n + 1) t2

end Nargun.Spec
