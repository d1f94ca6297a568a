import Verif.Model.Addr
import Verif.Lemmas.Message

namespace Nargun

theorem portBytes (p : U16) :
    (((p >>> 8).setWidth 8 : Byte).setWidth 16 <<< 8) ||| ((p &&& 0xff#16).setWidth 8 : Byte).setWidth 16 = p := by
  apply BitVec.eq_of_getLsbD_eq
  intro i hi
  have : i < 16 := hi
  have hm : (0xff#16).getLsbD i = decide (i < 8) := by
    have : ∀ j : Fin 16, (0xff#16).getLsbD j = decide (j.val < 8) := by decide
    exact this ⟨i, hi⟩
  simp only [BitVec.getLsbD_or, BitVec.getLsbD_shiftLeft, BitVec.getLsbD_setWidth, BitVec.getLsbD_ushiftRight,
    BitVec.getLsbD_and, hm]
  by_cases h8 : i < 8
  · simp [h8, hi]
  · have : i - 8 < 8 := by omega
    have e : 8 + (i - 8) = i := by omega
    simp [h8, hi, this, e]
    intro h; omega

theorem portBytes' (hi lo : Byte) :
    let p : U16 := (hi.setWidth 16 <<< 8) ||| lo.setWidth 16
    ((p >>> 8).setWidth 8 : Byte) = hi ∧ ((p &&& 0xff#16).setWidth 8 : Byte) = lo := by
  have hm : ∀ i < 16, (0xff#16).getLsbD i = decide (i < 8) := by
    have : ∀ j : Fin 16, (0xff#16).getLsbD j = decide (j.val < 8) := by decide
    intro i hi; exact this ⟨i, hi⟩
  constructor
  · apply BitVec.eq_of_getLsbD_eq
    intro i h
    have e : 8 + i - 8 = i := by omega
    have h16 : 8 + i < 16 := by omega
    have hn : ¬ 8 + i < 8 := by omega
    have h16' : i < 16 := by omega
    simp [h, e, h16, h16']
  · apply BitVec.eq_of_getLsbD_eq
    intro i h
    have h16 : i < 16 := by omega
    simp only [BitVec.getLsbD_setWidth, BitVec.getLsbD_and, BitVec.getLsbD_or, BitVec.getLsbD_shiftLeft, hm i h16,
      h, h16]
    simp

theorem SockAddr.compact_length (a : SockAddr) : a.compact.length = 6 := rfl

theorem sockAddr_roundtrip (a : SockAddr) : sockAddrFromCompact a.compact = .ok a := by
  obtain ⟨⟨x, y, z, w⟩, p⟩ := a
  have := portBytes p
  simp only [sockAddrFromCompact, SockAddr.compact, Ipv4.octets, List.cons_append, List.nil_append,
    List.length_cons, List.length_nil, index, List.getElem?_cons_zero, List.getElem?_cons_succ, Res.unwrap_some,
    Res.ok_bind, this]
  rfl

theorem sockAddr_inverse (v : Bytes) (h : v.length = 6) :
    ∃ a, sockAddrFromCompact v = .ok a ∧ a.compact = v := by
  match v, h with
  | [x, y, z, w, hi, lo], _ =>
    refine ⟨⟨⟨x, y, z, w⟩, (hi.setWidth 16 <<< 8) ||| lo.setWidth 16⟩, rfl, ?_⟩
    have := portBytes' hi lo
    simp only [SockAddr.compact, Ipv4.octets, this.1, this.2, List.cons_append, List.nil_append]

theorem sockAddr_wrong_length (v : Bytes) (h : v.length ≠ 6) : sockAddrFromCompact v = .err := by
  simp [sockAddrFromCompact, h]

theorem Node.compact_length (n : Node) : n.compact.length = 26 := by
  simp [Node.compact, n.id.len_eq, ID_LEN, SockAddr.compact_length]

theorem node_split (v : Bytes) (a : SockAddr) (h : v.length = 26) (ha : sockAddrFromCompact (v.drop 20) = .ok a) :
    Node.fromCompact v = .ok ⟨⟨v.take 20, by simp [ID_LEN]; omega⟩, a, none⟩ := by
  have hl : (v.take 20).length = ID_LEN := by simp [ID_LEN]; omega
  unfold Node.fromCompact
  rw [if_pos h]
  split
  rename_i id addr he
  simp only [List.splitAt_eq, ID_LEN, Prod.mk.injEq] at he
  obtain ⟨rfl, rfl⟩ := he
  simp only [ha, Res.ok_bind, hl, dif_pos]

theorem node_roundtrip (n : Node) : Node.fromCompact n.compact = .ok { n with lastSeen := none } := by
  have h1 : n.compact.take 20 = n.id.bytes := by
    have := n.id.len_eq
    simp only [ID_LEN] at this
    simp [Node.compact, this]
  have h2 : n.compact.drop 20 = n.addr.compact := by
    have := n.id.len_eq
    simp only [ID_LEN] at this
    simp [Node.compact, this]
  rw [node_split n.compact n.addr (Node.compact_length n) (by rw [h2]; exact sockAddr_roundtrip _)]
  simp [h1]

theorem node_inverse (v : Bytes) (h : v.length = 26) :
    ∃ n, Node.fromCompact v = .ok n ∧ n.compact = v ∧ n.lastSeen = none := by
  obtain ⟨a, h1, h2⟩ := sockAddr_inverse (v.drop 20) (by simp; omega)
  refine ⟨_, node_split v a h h1, ?_, rfl⟩
  simp [Node.compact, h2]

theorem node_wrong_length (v : Bytes) (h : v.length ≠ 26) : Node.fromCompact v = .err := by
  simp [Node.fromCompact, h]

/-- The concatenated compact forms. -/
theorem Nodes.compact_eq (ns : Nodes) : ns.compact = ns.list.flatMap Node.compact := by
  cases ns with
  | exact n => simp [Nodes.compact, Nodes.list]
  | closest ns =>
    have : ∀ (l : List Node) (acc : Bytes),
        l.foldl (fun v n => v ++ n.compact) acc = acc ++ l.flatMap Node.compact := by
      intro l
      induction l with
      | nil => simp
      | cons a l ih => intro acc; simp [ih]
    simp [Nodes.compact, Nodes.list, this]

theorem nodes_compact_length (l : List Node) : (l.flatMap Node.compact).length = 26 * l.length := by
  induction l with
  | nil => rfl
  | cons a l ih => simp [Node.compact_length, ih]; omega

theorem chunks_fuel {α} (k : Nat) (hk : 0 < k) (n : Nat) :
    ∀ m (xs : List α), xs.length ≤ n → xs.length ≤ m → chunks k n xs = chunks k m xs := by
  induction n with
  | zero =>
    intro m xs h _
    have : xs = [] := List.length_eq_zero_iff.mp (by omega)
    subst this
    cases m <;> simp [chunks]
  | succ n ih =>
    intro m xs h1 h2
    cases m with
    | zero =>
      have : xs = [] := List.length_eq_zero_iff.mp (by omega)
      subst this; simp [chunks]
    | succ m =>
      simp only [chunks]
      split
      · rfl
      · rename_i hne
        have := List.length_pos_iff.mpr hne
        rw [ih m (xs.drop k) (by simp; omega) (by simp; omega)]

theorem chunks_append {α} (k : Nat) (hk : 0 < k) (n : Nat) (a xs : List α) (ha : a.length = k)
    (hn : (a ++ xs).length ≤ n) : chunks k n (a ++ xs) = a :: chunks k xs.length xs := by
  cases n with
  | zero => simp [ha] at hn; omega
  | succ n =>
    have hne : a ++ xs ≠ [] := by
      intro h; have := congrArg List.length h; simp [ha] at this; omega
    simp only [chunks, hne, if_false]
    rw [List.take_append_of_le_length (by omega), List.take_of_length_le (by omega),
      List.drop_append_of_le_length (by omega), List.drop_of_length_le (by omega), List.nil_append]
    congr 1
    apply chunks_fuel k hk
    · simp at hn; omega
    · simp

theorem nodesFromChunks_roundtrip (l : List Node) :
    nodesFromChunks (chunks 26 (l.flatMap Node.compact).length (l.flatMap Node.compact))
      = .ok (l.map fun n => { n with lastSeen := none }) := by
  induction l with
  | nil => rfl
  | cons n l ih =>
    rw [List.flatMap_cons, chunks_append 26 (by decide) _ _ _ (Node.compact_length n) (by simp)]
    simp only [nodesFromChunks, node_roundtrip, Res.ok_bind, ih, List.map_cons]

end Nargun
