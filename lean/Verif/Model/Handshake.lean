import Verif.Model.Addr
import Verif.Model.Receiver

/-! # Model of `src/peers/connection/handshake.rs` and of message dispatch in
`src/peers/connection/connection_manager.rs` -/

namespace Nargun

/-- `handshake.rs:8` `PSTRLEN`. -/
def PSTRLEN : Byte := 19#8

/-- `handshake.rs:9` `PSTR`: `b"BitTorrent protocol"`. -/
def PSTR : Bytes :=
  [0x42#8, 0x69#8, 0x74#8, 0x54#8, 0x6f#8, 0x72#8, 0x72#8, 0x65#8, 0x6e#8, 0x74#8, 0x20#8,
   0x70#8, 0x72#8, 0x6f#8, 0x74#8, 0x6f#8, 0x63#8, 0x6f#8, 0x6c#8]

/-- `handshake.rs:10` `HANDSHAKE_LENGTH_FOR_BITTORRENT_PROTOCOL`. -/
notation "HANDSHAKE_LENGTH" => (68 : Nat)

/-- `handshake.rs:33-41` `struct Handshake` (`repr(C)`, so the fields are laid out in this order; all have
alignment 1, so there is no padding). -/
structure Handshake where
  pstrlen : Byte
  pstr : Bytes
  reserved : Bytes
  infoHash : ID
  peerId : ID

/-- `handshake.rs:44-52` `Handshake::new`. -/
def Handshake.new (infoHash peerId : ID) : Handshake :=
  { pstrlen := PSTRLEN
    pstr := PSTR
    reserved := [0#8, 0#8, 0#8, 0#8, 0#8, 0#8, 0#8, 1#8]
    infoHash := infoHash
    peerId := peerId }

/-- `handshake.rs:54-58` `Handshake::as_ref`: the bytes of the structure. -/
def Handshake.asRef (h : Handshake) : Bytes :=
  [h.pstrlen] ++ h.pstr ++ h.reserved ++ h.infoHash.bytes ++ h.peerId.bytes

/-- `handshake.rs:60-77` `Handshake::check_validity`. -/
def Handshake.checkValidity (buf : Bytes) : Res Unit :=
  if buf.length ≠ HANDSHAKE_LENGTH then .err
  else do
    let pstrlen ← index buf 0
    let pstr ← sliceR buf 1 (PSTRLEN.toNat + 1)
    if pstrlen ≠ PSTRLEN ∨ pstr ≠ PSTR then .err else .ok ()

/-- `handshake.rs:12-31` `initiate_handshake` on a connected stream (`TcpStream::connect` and `write_all` are
assumed to have succeeded): what is written, and the outcome when the single `read` at line 23 returns the
bytes `received` (at most 68). -/
def initiateHandshake (infoHash peerId : ID) (received : Bytes) : Bytes × Res Unit :=
  let handshake := Handshake.new infoHash peerId
  let buf := received ++ List.replicate (HANDSHAKE_LENGTH - received.length) 0#8
  (handshake.asRef,
    if received.length ≠ HANDSHAKE_LENGTH then .err
    else Handshake.checkValidity buf)

/-- `connection_manager.rs:181-195` `enum ConMessageType`; `FinishedPiece` carries the piece (see
`Model/PendingPieces`), here its index and blocks. -/
inductive ConMessageType where
  | unreachable
  | disconnected
  | keepAlive
  | choke
  | unchoke
  | interested
  | notInterested
  | have_ (i : U32)
  | bitfield (b : Bytes)
  | request (r : Request)
  | finishedPiece (idx : Nat) (blocks : List Bytes)
  | cancel (r : Request)
  deriving DecidableEq, Repr

/-- `connection_manager.rs:197-217` `TryFrom<Message> for ConMessageType`. -/
def ConMessageType.tryFrom : Message → Res ConMessageType
  | .keepAlive => .ok .keepAlive
  | .choke => .ok .choke
  | .unchoke => .ok .unchoke
  | .interested => .ok .interested
  | .notInterested => .ok .notInterested
  | .have_ v => .ok (.have_ v)
  | .bitfield v => .ok (.bitfield v)
  | .request v => .ok (.request v)
  | .piece _ => .err
  | .cancel v => .ok (.cancel v)
  | .port _ => .err

/-- One message put on a channel by `handle_message`. -/
inductive Dispatch where
  | toPieces (p : Piece)
  | toDht (a : SockAddr)
  | toPeers (peer : Peer) (m : ConMessageType)
  deriving DecidableEq, Repr

/-- `connection_manager.rs:145-173` `handle_message`: the channel sends, in order. A failed send is ignored
by the code, so only the attempt is recorded. -/
def handleMessage (peer : Peer) (m : Message) : List Dispatch :=
  match m with
  | .piece p => [.toPieces p]
  | .port port => [.toDht { peer.addr with port := port }]
  | m =>
    match ConMessageType.tryFrom m with
    | .ok c => [.toPeers peer c]
    | _ => []

/-- The sends of a whole run of the receive loop, `connection_manager.rs:137`. -/
def dispatchAll (peer : Peer) (ms : List Message) : List Dispatch := ms.flatMap (handleMessage peer)

/-- `connection_manager.rs:79-95` `manager_sender`: the bytes written for the messages taken from the
channel, in order. A write error is logged and the loop goes on; here writes succeed. -/
def managerSender : List Message → Res Bytes
  | [] => .ok []
  | m :: ms => do
    let b ← m.intoBytes
    let r ← managerSender ms
    .ok (b ++ r)

end Nargun
