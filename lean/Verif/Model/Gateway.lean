import Verif.Model.Launch

/-! # Model of the port forwarding: `gateway_device.rs`, and the start of the program behind a gateway

The gateway is its table of forwarded ports. What `igd` (dependency) asks it and what it answers is left open: it refuses, or
opens some external port. -/

namespace Nargun.Gateway

open Nargun Dht

/-- `igd::PortMappingProtocol` (dependency). -/
inductive Proto where
  | tcp | udp
  deriving DecidableEq, Repr

/-- What an external port is forwarded to, for how many seconds (0: for ever), and the text that describes it. -/
structure Mapping where
  internal : SockAddr
  lease : Nat
  description : Bytes
  deriving DecidableEq, Repr

/-- The forwarded ports of a gateway. -/
abbrev Table := Map (Proto × U16) Mapping

/-- `gateway_device.rs:6` `LOCAL_PORT_TCP`. -/
def LOCAL_PORT_TCP : U16 := 46492#16

/-- `gateway_device.rs:7` `LOCAL_PORT_UDP`. -/
def LOCAL_PORT_UDP : U16 := 46493#16

/-- The result of `local_ip_address::local_ip` (dependency): the address of this machine, or an error. -/
inductive LocalIp where
  | v4 (ip : Ipv4)
  | v6
  | unknown

/-- The answer of the gateway to `igd::Gateway::add_any_port` (dependency). -/
inductive Answer where
  | refused
  | opened (port : U16)

/-- `igd::Gateway::add_any_port` (dependency): an error changes nothing; otherwise the port that was opened. -/
def addAnyPort (t : Table) (proto : Proto) (internal : SockAddr) (lease : Nat) (description : Bytes) :
    Answer → Table × Res U16
  | .refused => (t, .err)
  | .opened p => (t.insert (proto, p) ⟨internal, lease, description⟩, .ok p)

/-- What the program finds: the address of this machine, whether there is a gateway (`igd::search_gateway`), and what the
gateway answers to the two requests. -/
structure Around where
  localIp : LocalIp
  found : Bool
  tcp : Answer
  udp : Answer

/-- `gateway_device.rs:9-32` `open_any_port`: the forwarded ports of the gateway afterwards, and the result. -/
def openAnyPort (a : Around) (t : Table) : Table × Res (U16 × U16) :=
  match a.localIp with
  | .v4 ip =>
    if a.found then
      match addAnyPort t .tcp ⟨ip, LOCAL_PORT_TCP⟩ 0 (Spec.ascii "TCP for peer protocol") a.tcp with
      | (t1, .ok tcpPort) =>
        match addAnyPort t1 .udp ⟨ip, LOCAL_PORT_UDP⟩ 0 (Spec.ascii "UDP for DHT") a.udp with
        | (t2, .ok udpPort) => (t2, .ok (tcpPort, udpPort))
        | (t2, _) => (t2, .err)
      | (t1, _) => (t1, .err)
    else (t, .err)
  | _ => (t, .err)

/-- `main.rs:60-169` with the gateway: the torrent file is read first (`main.rs:65`), then the ports are opened
(`main.rs:67`); `tcp_port` is what is announced (`main.rs:72`, `:88`). `Machine.gateway` and `World.port` stand for the
result and are not used otherwise. The third component is the start without the gateway, `Verif.Model.Launch`. -/
def launchBehind (sha1 : Bytes → ID) (utf8 : Bytes → Bool) (w : Program.World) (m : Program.Machine) (c : Program.Chance)
    (a : Around) (t : Table) : Table × Program.World × Tree × Res Program.State :=
  match Program.readTorrent sha1 utf8 m with
  | .ok _ =>
    match openAnyPort a t with
    | (t', .ok ports) => (t', { w with port := ports.1 },
        Program.launch sha1 utf8 { w with port := ports.1 } { m with gateway := true } c)
    | (t', _) => (t', w, Program.launch sha1 utf8 w { m with gateway := false } c)
  | _ => (t, w, Program.launch sha1 utf8 w m c)

end Nargun.Gateway
