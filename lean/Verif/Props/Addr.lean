import Verif.Lemmas.Addr
import Verif.Spec.Bits

/-! # C20: compact addresses, peers and nodes -/

namespace Nargun

/-- C20. An address and a peer decode to themselves; exactly the 6-byte strings are accepted, and each is the
encoding of what it decodes to. -/
theorem C20_addr_roundtrip (a : SockAddr) :
    sockAddrFromCompact a.compact = .ok a ∧ Peer.visitBytes (Peer.compact ⟨a⟩) = .ok ⟨a⟩ := by
  refine ⟨sockAddr_roundtrip a, ?_⟩
  simp [Peer.visitBytes, Peer.fromCompact, Peer.compact, SockAddr.compact_length, sockAddr_roundtrip]

/-- C20. Byte strings of any other length are refused (not a panic), byte strings of the right length are the
encoding of what they decode to. -/
theorem C20_addr_accepts (v : Bytes) :
    (v.length ≠ 6 → sockAddrFromCompact v = .err ∧ Peer.visitBytes v = .err) ∧
    (v.length = 6 → ∃ a, sockAddrFromCompact v = .ok a ∧ Peer.visitBytes v = .ok ⟨a⟩ ∧ a.compact = v) := by
  constructor
  · intro h; exact ⟨sockAddr_wrong_length v h, by simp [Peer.visitBytes, h]⟩
  · intro h
    obtain ⟨a, h1, h2⟩ := sockAddr_inverse v h
    exact ⟨a, h1, by simp [Peer.visitBytes, Peer.fromCompact, h, h1], h2⟩

/-- C20. The compact form is the four octets in order followed by the port in network byte order. -/
theorem C20_addr_format (a : SockAddr) :
    a.compact.take 4 = [a.ip.a, a.ip.b, a.ip.c, a.ip.d] ∧ a.compact.length = 6 ∧
    Spec.beNat (a.compact.drop 4) = a.port.toNat := by
  refine ⟨rfl, rfl, ?_⟩
  have h := portBytes a.port
  have hand : ∀ x y : Byte, ((x.setWidth 16 <<< 8) ||| y.setWidth 16 : U16).toNat = x.toNat * 256 + y.toNat := by
    intro x y
    have hx := x.isLt; have hy := y.isLt
    simp only [BitVec.toNat_or, BitVec.toNat_shiftLeft, BitVec.toNat_setWidth, Nat.shiftLeft_eq]
    rw [Nat.mod_eq_of_lt (show x.toNat < 2 ^ 16 by omega), Nat.mod_eq_of_lt (show y.toNat < 2 ^ 16 by omega),
      Nat.mod_eq_of_lt (by omega), Nat.mul_comm, ← Nat.two_pow_add_eq_or_of_lt hy]
  have := congrArg BitVec.toNat h
  rw [hand] at this
  simpa [SockAddr.compact, Ipv4.octets, Spec.beNat] using this

/-- C20. A DHT node decodes to its id and address (the time it was last seen is not transmitted); exactly the
26-byte strings are accepted. -/
theorem C20_node_roundtrip (n : Node) : Node.fromCompact n.compact = .ok { n with lastSeen := none } :=
  node_roundtrip n

theorem C20_node_accepts (v : Bytes) :
    (v.length ≠ 26 → Node.fromCompact v = .err) ∧
    (v.length = 26 → ∃ n, Node.fromCompact v = .ok n ∧ n.compact = v ∧ n.lastSeen = none) :=
  ⟨node_wrong_length v, node_inverse v⟩

/-- C20: a byte string becomes an id, by either conversion, iff it has 20 bytes, and then the id consists of these bytes
in this order; anything else ends the calling task. -/
theorem C20_id_accepts (v : Bytes) :
    (∀ i, ID.fromVec v = .ok i ↔ v = i.bytes) ∧ (∀ i, ID.visitBytes v = .ok i ↔ v = i.bytes) ∧
    (ID.fromVec v = .panic ↔ v.length ≠ 20) ∧ (ID.visitBytes v = .panic ↔ v.length ≠ 20) := by
  have h20 : ID_LEN = 20 := rfl
  unfold ID.fromVec ID.visitBytes
  by_cases h : v.length = ID_LEN
  · simp only [h, dif_pos, Res.ok.injEq]
    refine ⟨fun i => ?_, fun i => ?_, by simp [h20], by simp [h20]⟩ <;>
    · cases i; simp
  · have : ∀ i : ID, v ≠ i.bytes := fun i hi => h (by rw [hi]; exact i.len_eq)
    simp [h, this, h20 ▸ h]

/-- Twenty bytes. -/
example : ∃ i : ID, ID.fromVec (List.replicate 20 7#8) = .ok i ∧ ID.fromVec (List.replicate 19 7#8) = .panic :=
  ⟨⟨List.replicate 20 7#8, rfl⟩, by decide, by decide⟩

/-- C20. A list of nodes decodes to the same nodes in the same order. -/
theorem C20_nodes_roundtrip (ns : Nodes) :
    ∃ ns', Nodes.visitBytes ns.compact = .ok ns' ∧
      ns'.list = ns.list.map (fun n => { n with lastSeen := none }) := by
  rw [Nodes.compact_eq]
  have hl := nodes_compact_length ns.list
  unfold Nodes.visitBytes
  rw [if_neg (by rw [hl]; omega), hl]
  by_cases h1 : 26 * ns.list.length / 26 = 1
  · rw [if_pos h1]
    have hlen : ns.list.length = 1 := by omega
    obtain ⟨n, hn⟩ := List.length_eq_one_iff.mp hlen
    simp only [hn, List.flatMap_cons, List.flatMap_nil, List.append_nil, node_roundtrip, Res.ok_bind]
    exact ⟨_, rfl, rfl⟩
  · rw [if_neg h1, ← hl, nodesFromChunks_roundtrip]
    exact ⟨_, rfl, rfl⟩

/-- C20. A node list is accepted exactly when its length is a multiple of 26, and then it is the encoding of
the nodes it decodes to. -/
theorem C20_nodes_accepts (v : Bytes) :
    (v.length % 26 ≠ 0 → Nodes.visitBytes v = .err) ∧
    (v.length % 26 = 0 → ∃ ns, Nodes.visitBytes v = .ok ns ∧ ns.compact = v) := by
  have key : ∀ k (v : Bytes), v.length = 26 * k → ∃ l : List Node, v = l.flatMap Node.compact := by
    intro k
    induction k with
    | zero => intro v h; exact ⟨[], by simpa using h⟩
    | succ k ih =>
      intro v h
      obtain ⟨n, _, hn, _⟩ := node_inverse (v.take 26) (by simp; omega)
      obtain ⟨l, hl⟩ := ih (v.drop 26) (by simp; omega)
      refine ⟨n :: l, ?_⟩
      rw [List.flatMap_cons, ← hl, hn, List.take_append_drop]
  constructor
  · intro h; simp [Nodes.visitBytes, h]
  · intro h
    obtain ⟨l, hl⟩ := key (v.length / 26) v (by omega)
    have hlen := nodes_compact_length l
    subst hl
    unfold Nodes.visitBytes
    rw [if_neg (by omega)]
    have hc : (l.map fun n => ({ n with lastSeen := none } : Node)).flatMap Node.compact = l.flatMap Node.compact := by
      simp only [List.flatMap_map]; rfl
    by_cases h1 : (l.flatMap Node.compact).length / 26 = 1
    · rw [if_pos h1]
      obtain ⟨n, hn⟩ := List.length_eq_one_iff.mp (show l.length = 1 by omega)
      subst hn
      simp only [List.flatMap_cons, List.flatMap_nil, List.append_nil, node_roundtrip, Res.ok_bind]
      exact ⟨_, rfl, by simp [Nodes.compact, Node.compact]⟩
    · rw [if_neg h1, nodesFromChunks_roundtrip]
      exact ⟨_, rfl, by rw [Nodes.compact_eq]; exact hc⟩

example : (SockAddr.compact ⟨⟨121#8, 104#8, 102#8, 53#8⟩, 24929#16⟩) =
    [121#8, 104#8, 102#8, 53#8, 0x61#8, 0x61#8] := by decide

/-- `C20_addr_accepts`, `C20_node_accepts`, `C20_nodes_accepts`: lengths that are taken and lengths that are refused. -/
example : sockAddrFromCompact [127#8, 0#8, 0#8, 1#8, 0x1A#8, 0xE1#8] = .ok ⟨⟨127#8, 0#8, 0#8, 1#8⟩, 6881#16⟩ ∧
    sockAddrFromCompact [127#8, 0#8, 0#8, 1#8, 0x1A#8] = .err ∧ Node.fromCompact (List.replicate 25 1#8) = .err ∧
    (∃ n, Node.fromCompact (List.replicate 26 1#8) = .ok n ∧ n.addr = ⟨⟨1#8, 1#8, 1#8, 1#8⟩, 257#16⟩) ∧
    Nodes.visitBytes (List.replicate 51 1#8) = .err :=
  ⟨by decide, by decide, by decide, ⟨⟨⟨List.replicate 20 1#8, rfl⟩, ⟨⟨1#8, 1#8, 1#8, 1#8⟩, 257#16⟩, none⟩, by decide, rfl⟩, by decide⟩

end Nargun
