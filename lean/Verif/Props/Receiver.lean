import Verif.Lemmas.Receiver
import Verif.Model.Handshake

/-! # C14-C17: framing, unknown messages, progress, dispatch -/

namespace Nargun
open Spec

theorem init_data : RecvState.init.data = [] := by simp [RecvState.data, RecvState.init]

/-- Delivering a prefix `ms.take k` of the messages after `n` stream bytes is exact: everything whose last
byte is among the first `n` bytes has been delivered, and nothing else. -/
def DeliveredExactly (ms : List Message) (k n : Nat) : Prop :=
  k ≤ ms.length ∧ (wireAll (ms.take k)).length ≤ n ∧
    (k < ms.length → n < (wireAll (ms.take (k + 1))).length)

/-- C14. For every sequence of messages that fit the receive buffer and every way the stream is cut into
reads, the receiver never panics, and after the reads it has handled exactly those messages, in order, whose
last byte has been read. Reads of at least one byte always make progress, so after as many reads as there are
bytes the whole sequence has been handled. -/
theorem C14_framing (ms : List Message) (hw : ∀ m ∈ ms, (wire m).length ≤ MAX_MESSAGE_BYTES)
    (sched : List Nat) :
    ∃ k s' rest, RecvState.init.run (wireAll ms) sched = .ok (s', rest, ms.take k) ∧
      rest <:+ wireAll ms ∧
      DeliveredExactly ms k ((wireAll ms).length - rest.length) ∧
      (rest = [] → ms.take k = ms) ∧
      ((∀ n ∈ sched, 1 ≤ n) → (wireAll ms).length ≤ sched.length → rest = []) := by
  obtain ⟨k, s', rest, hr, hi, hk, hsuf, hcase, hprog⟩ := run_msgs sched _ RecvState.init_inv ms hw [] (wireAll ms)
    (.inl rfl) (by simp) (by simp [init_data])
    ⟨by intro m _; have := wire_length_ge m; simp [RecvState.init]; omega, by simp⟩
  have hsl := hsuf.length_le
  have htot : (wireAll (ms.take k)).length + (wireAll (ms.drop k)).length = (wireAll ms).length := by
    rw [← List.length_append, ← wireAll_append, List.take_append_drop]
  have hdel : DeliveredExactly ms k ((wireAll ms).length - rest.length) := by
    refine ⟨hk, ?_, ?_⟩
    · rcases hcase with ⟨h1, _⟩ | ⟨_, _, h3⟩
      · have := congrArg List.length h1
        simp only [List.length_append, List.append_nil] at this
        omega
      · subst h3; simp only [List.length_nil]; omega
    · intro hlt
      rcases hcase with ⟨h1, h2, _⟩ | ⟨h, _, _⟩
      · have hd := congrArg List.length h1
        simp only [List.length_append, List.append_nil, hi.data_length] at hd
        have hq := h2 ms[k] (by simp [List.head?_drop, hlt])
        have e : wireAll (ms.take (k + 1)) = wireAll (ms.take k) ++ wire ms[k] := by
          rw [List.take_add_one, wireAll_append]; simp [hlt, wireAll]
        rw [e, List.length_append]
        omega
      · omega
  refine ⟨k, s', rest, hr, hsuf, hdel, ?_, ?_⟩
  · rintro rfl
    by_cases hlt : k < ms.length
    · have := hdel.2.2 hlt
      have e : (wireAll (ms.take (k + 1))).length ≤ (wireAll ms).length := by
        have := congrArg List.length (wireAll_append (ms.take (k + 1)) (ms.drop (k + 1)))
        rw [List.take_append_drop, List.length_append] at this
        omega
      simp at this; omega
    · exact List.take_of_length_le (by omega)
  · intro h1 h2
    rcases hprog h1 with h | h
    · exact h
    · exact List.length_eq_zero_iff.mp (by omega)

/-- The hypothesis is met by, for example, a full block, a bitfield and a request. -/
example : ∀ m ∈ [Message.bitfield [0xff#8, 0x80#8], .request ⟨1#32, 2#32, 16384#32⟩,
    .piece ⟨1#32, 0#32, List.replicate 16384 7#8⟩], (wire m).length ≤ MAX_MESSAGE_BYTES := by
  intro m hm
  simp only [List.mem_cons, List.not_mem_nil, or_false] at hm
  rcases hm with rfl | rfl | rfl <;> rw [wire_length] <;>
    simp only [payload, beBytes_length, List.length_cons, List.length_append, List.length_replicate] <;> decide

/-- C14, end to end: what one client's sender writes, another client's receiver hands over, whatever the
segmentation. -/
theorem C14_end_to_end (ms : List Message) (hw : ∀ m ∈ ms, (wire m).length ≤ MAX_MESSAGE_BYTES)
    (sched : List Nat) (hpos : ∀ n ∈ sched, 1 ≤ n) (hlen : (wireAll ms).length ≤ sched.length) :
    ∃ bytes s', managerSender ms = .ok bytes ∧ RecvState.init.run bytes sched = .ok (s', [], ms) := by
  have hsend : managerSender ms = .ok (wireAll ms) := by
    clear hlen
    induction ms with
    | nil => rfl
    | cons m ms ih =>
      simp only [managerSender, intoBytes_eq m (fits_of_wire (hw m (by simp))), Res.ok_bind,
        ih (fun x hx => hw x (by simp [hx])), wireAll_cons]
  obtain ⟨k, s', rest, h1, _, _, h4, h5⟩ := C14_framing ms hw sched
  have hrest := h5 hpos hlen
  rw [h4 hrest, hrest] at h1
  exact ⟨_, s', hsend, h1⟩

/-! ## C15 -/

/-- C15, the part that holds: if a read ends exactly at the end of the unknown message (so nothing behind it is
buffered), it is skipped alone: the messages before it are handled, and the receiver is left empty, so every
later message is handled as in `C14_framing`. Missing: the same when later bytes arrive in the same read, which
is false (`C15_unknown_skip_violated`). -/
theorem C15_unknown_skip_partial (ms ms' : List Message) (u : Bytes) (hu : UnknownFrame u)
    (hul : u.length ≤ MAX_MESSAGE_BYTES)
    (hw : ∀ m ∈ ms, (wire m).length ≤ MAX_MESSAGE_BYTES) (hw' : ∀ m ∈ ms', (wire m).length ≤ MAX_MESSAGE_BYTES)
    (sched sched' : List Nat) (hpos : ∀ n ∈ sched, 1 ≤ n) (hlen : (wireAll ms ++ u).length ≤ sched.length)
    (hpos' : ∀ n ∈ sched', 1 ≤ n) (hlen' : (wireAll ms').length ≤ sched'.length) :
    ∃ s1 s2, RecvState.init.run (wireAll ms ++ u) sched = .ok (s1, [], ms) ∧
      s1.run (wireAll ms') sched' = .ok (s2, [], ms') := by
  obtain ⟨k, s1, rest, hr, hi, hk, hsuf, hcase, hprog⟩ := run_msgs sched _ RecvState.init_inv ms hw u
    (wireAll ms ++ u) (.inr hu) hul (by simp [init_data])
    ⟨by intro m _; have := wire_length_ge m; simp [RecvState.init]; omega,
     by intro _ _; have := hu.length; simp [RecvState.init]; omega⟩
  have hrest : rest = [] := by
    rcases hprog hpos with h | h
    · exact h
    · exact List.length_eq_zero_iff.mp (by omega)
  subst hrest
  have hdone : k = ms.length ∧ s1.dataLen = 0 := by
    rcases hcase with ⟨h1, h2, h3⟩ | ⟨h1, h2, _⟩
    · exfalso
      have hd := congrArg List.length h1
      simp only [List.length_append, hi.data_length, List.length_nil, Nat.add_zero] at hd
      have hul5 := hu.length
      by_cases hlt : k < ms.length
      · have := h2 ms[k] (by simp [List.head?_drop, hlt])
        have e : wireAll (ms.drop k) = wire ms[k] ++ wireAll (ms.drop (k + 1)) := by
          rw [List.drop_eq_getElem_cons hlt, wireAll_cons]
        rw [e, List.length_append] at hd
        omega
      · have hnil : ms.drop k = [] := List.drop_eq_nil_iff.mpr (by omega)
        have := h3 hnil (by intro h; rw [h] at hul5; simp at hul5)
        omega
    · exact ⟨h1, h2⟩
  obtain ⟨hk1, hz⟩ := hdone
  have hdat : s1.data = [] := by simp [RecvState.data, hz]
  obtain ⟨k', s2, rest', hr', hi', hk', _, hcase', hprog'⟩ := run_msgs sched' s1 hi ms' hw' [] (wireAll ms')
    (.inl rfl) (by simp) (by simp [hdat])
    ⟨by intro m _; have := wire_length_ge m; omega, by simp⟩
  have hrest' : rest' = [] := by
    rcases hprog' hpos' with h | h
    · exact h
    · exact List.length_eq_zero_iff.mp (by omega)
  subst hrest'
  have hk2 : k' = ms'.length := by
    rcases hcase' with ⟨h1, h2, _⟩ | ⟨h1, _, _⟩
    · by_cases hlt : k' < ms'.length
      · exfalso
        have hd := congrArg List.length h1
        simp only [List.length_append, hi'.data_length, List.length_nil, Nat.add_zero] at hd
        have := h2 ms'[k'] (by simp [List.head?_drop, hlt])
        have e : wireAll (ms'.drop k') = wire ms'[k'] ++ wireAll (ms'.drop (k' + 1)) := by
          rw [List.drop_eq_getElem_cons hlt, wireAll_cons]
        rw [e, List.length_append] at hd
        omega
      · omega
    · exact h1
  refine ⟨s1, s2, ?_, ?_⟩
  · rw [hr, hk1, List.take_length]
  · rw [hr', hk2, List.take_length]

/-- A BEP 10 extension message (id 20) is such an unknown frame. -/
example : UnknownFrame [0#8, 0#8, 0#8, 2#8, 20#8, 0#8] := ⟨20#8, [0#8], by decide, by decide, by decide⟩

/-- What happens otherwise: whatever complete messages and partial data follow an unknown message in the
buffer, all of it is thrown away. -/
theorem C15_unknown_drops_everything_partial (u rest : Bytes) (hu : UnknownFrame u)
    (hl : (u ++ rest).length ≤ MAX_MESSAGE_BYTES) :
    ∃ s', RecvState.init.iterate (u ++ rest) = .ok (s', []) ∧ s'.dataLen = 0 := by
  obtain ⟨s1, h1, hi1, hd1, hl1⟩ := onRead_spec RecvState.init_inv (u ++ rest)
    (by simpa [RecvState.capacity, RecvState.init] using hl)
  refine ⟨{ s1 with dataStart := 0, dataLen := 0 }, ?_, rfl⟩
  simp only [RecvState.iterate, h1, Res.ok_bind]
  exact drain_unknown hi1 _ u rest hu (by simpa [init_data] using hd1)

/-- C15 is violated: the unknown message followed, in the same read, by `choke` loses the `choke`. -/
theorem C15_unknown_skip_violated :
    ∃ (u : Bytes) (s' : RecvState), UnknownFrame u ∧
      RecvState.init.run (u ++ wireAll [.choke]) [(u ++ wireAll [.choke]).length] = .ok (s', [], []) := by
  refine ⟨[0#8, 0#8, 0#8, 2#8, 20#8, 0#8], ?_⟩
  have hu : UnknownFrame [0#8, 0#8, 0#8, 2#8, 20#8, 0#8] := ⟨20#8, [0#8], by decide, by decide, by decide⟩
  have hwl : (wireAll [.choke]).length = 5 := by decide
  obtain ⟨s', hit, _⟩ := C15_unknown_drops_everything_partial _ (wireAll [.choke]) hu
    (by simp [hwl, MAX_MESSAGE_BYTES, BLOCK_SIZE])
  refine ⟨s', hu, ?_⟩
  have hcap : RecvState.init.capacity = 16512 := by
    simp only [RecvState.capacity, RecvState.init, List.length_replicate]; decide
  simp only [RecvState.run, hcap, List.length_append, hwl]
  rw [show min (List.length [0#8, 0#8, 0#8, 2#8, 20#8, 0#8] + 5) 16512 = 11 by decide]
  rw [List.take_of_length_le (by simp [hwl]), List.drop_of_length_le (by simp [hwl]), hit]
  rfl

/-! ## C16 -/

/-- C16, what holds: a read error ends the receive task, after handling everything read before. Missing: the
task also ends on end of stream and on unacceptable lengths, which is false (`C16_eof_violated`,
`C16_oversize_violated`). -/
theorem C16_read_error_ends_partial (s : RecvState) (chunks : List Bytes) (more : List ReadResult)
    (s' : RecvState) (ms : List Message) (fin : Bool)
    (h : receiver s (chunks.map .data) = .ok (s', ms, fin)) :
    receiver s (chunks.map .data ++ .error :: more) = .ok (s', ms, true) := by
  induction chunks generalizing s s' ms fin with
  | nil =>
    simp only [List.map_nil, receiver, Res.ok.injEq, Prod.mk.injEq] at h
    obtain ⟨rfl, rfl, rfl⟩ := h
    rfl
  | cons c cs ih =>
    simp only [List.map_cons, receiver, List.cons_append] at h ⊢
    cases hc : s.iterate c with
    | ok p =>
      rw [hc] at h
      simp only [Res.ok_bind] at h ⊢
      cases hr : receiver p.1 (cs.map .data) with
      | ok q =>
        rw [hr] at h
        rw [ih p.1 q.1 q.2.1 q.2.2 hr]
        simp only [Res.ok_bind, Res.ok.injEq, Prod.mk.injEq] at h ⊢
        exact ⟨h.1, h.2.1, trivial⟩
      | err => rw [hr] at h; simp at h
      | panic => rw [hr] at h; simp at h
    | err => rw [hc] at h; simp at h
    | panic => rw [hc] at h; simp at h

/-- C16 is violated at end of stream: `read` returning 0 bytes any number of times leaves the task running in
the same state; it neither ends nor reports the peer. -/
theorem C16_eof_violated (n : Nat) :
    receiver RecvState.init (List.replicate n (.data [])) = .ok (RecvState.init, [], false) := by
  have h0 : RecvState.init.iterate [] = .ok (RecvState.init, []) := by
    rw [iterate_nil RecvState.init_inv, drain_empty (by simp [RecvState.init])]
  induction n with
  | zero => rfl
  | succ n ih => simp [List.replicate_succ, receiver, h0, ih]

/-- The inner loop does nothing while the announced length exceeds what is buffered. -/
theorem drain_oversize {s : RecvState} (h : s.Inv) (fuel n : Nat) (hn : n < 2 ^ 32) (hbig : MAX_MESSAGE_BYTES < n + 4) :
    s.dataLen < 4 ∨ beBytes 4 n <+: s.data → s.drain fuel = .ok (s, []) := by
  intro hc
  rcases hc with h4 | hp
  · exact drain_empty h4 fuel
  · cases fuel with
    | zero => rfl
    | succ fuel =>
      by_cases h4 : s.dataLen < 4
      · exact drain_empty h4 _
      · unfold RecvState.drain
        have h2 := h.size; have h3 := h.fits
        rw [if_neg h4, h.start, sliceFrom_ok (by omega), List.drop_zero]
        obtain ⟨r, hr⟩ := hp
        have e1 : Message.len s.buf = .ok n := by
          rw [h.buf_eq, ← hr, List.append_assoc]; exact fromBuf_prefix _ hn _
        simp only [Res.ok_bind, e1]
        rw [if_neg (by omega)]

/-- C16 is violated for a message that does not fit the buffer: after a length prefix above 16508 the receiver
handles no message ever again, reads at most 16512 bytes in total whatever the peer sends, and does not end. -/
theorem C16_oversize_violated (n : Nat) (hn : n < 2 ^ 32) (hbig : MAX_MESSAGE_BYTES < n + 4) (t : Bytes)
    (sched : List Nat) :
    ∃ s' rest, RecvState.init.run (beBytes 4 n ++ t) sched = .ok (s', rest, []) ∧
      (beBytes 4 n ++ t).length ≤ rest.length + MAX_MESSAGE_BYTES := by
  have key : ∀ (sched : List Nat) (s : RecvState), s.Inv → ∀ stream, s.data ++ stream = beBytes 4 n ++ t →
      ∃ s' rest, s.run stream sched = .ok (s', rest, []) ∧ s'.Inv ∧ s'.data ++ rest = beBytes 4 n ++ t := by
    intro sched
    induction sched with
    | nil => intro s hs stream he; exact ⟨s, stream, rfl, hs, he⟩
    | cons k sched ih =>
      intro s hs stream he
      obtain ⟨s1, h1, hi1, hd1, hl1⟩ := onRead_spec hs (stream.take (min k s.capacity)) (by simp; omega)
      have he1 : s1.data ++ stream.drop (min k s.capacity) = beBytes 4 n ++ t := by
        rw [hd1, List.append_assoc, List.take_append_drop, he]
      have hdr : s1.drain (s1.dataLen + 1) = .ok (s1, []) := by
        by_cases h4 : s1.dataLen < 4
        · exact drain_empty h4 _
        · have hp : beBytes 4 n <+: s1.data := by
            apply List.prefix_of_prefix_length_le (l₃ := beBytes 4 n ++ t) (List.prefix_append _ _)
            · rw [← he1]; exact List.prefix_append _ _
            · rw [beBytes_length, hi1.data_length]; omega
          exact drain_oversize hi1 _ n hn hbig (.inr hp)
      obtain ⟨s', rest, hr, hi', he'⟩ := ih s1 hi1 _ he1
      exact ⟨s', rest, by simp [RecvState.run, RecvState.iterate, h1, hdr, hr], hi', he'⟩
  obtain ⟨s', rest, hr, hi, he⟩ := key sched _ RecvState.init_inv (beBytes 4 n ++ t) (by simp [init_data])
  refine ⟨s', rest, hr, ?_⟩
  have := congrArg List.length he
  have := hi.data_length
  have := hi.fits
  simp only [List.length_append] at *
  omega

/-- For instance the bitfield of a torrent with 200000 pieces. -/
example : MAX_MESSAGE_BYTES < 25001 + 4 := by decide

/-! ## C17 -/

/-- The piece messages of a sequence. -/
def piecesOf (ms : List Message) : List Piece := ms.filterMap fun m => match m with | .piece p => some p | _ => none

/-- The ports announced in a sequence. -/
def portsOf (ms : List Message) : List U16 := ms.filterMap fun m => match m with | .port p => some p | _ => none

/-- The remaining messages of a sequence. -/
def otherOf (ms : List Message) : List Message :=
  ms.filter fun m => match m with | .piece _ => false | .port _ => false | _ => true

/-- The wire message a forwarded message stands for, if any. -/
def asMessage : ConMessageType → Option Message
  | .keepAlive => some .keepAlive
  | .choke => some .choke
  | .unchoke => some .unchoke
  | .interested => some .interested
  | .notInterested => some .notInterested
  | .have_ i => some (.have_ i)
  | .bitfield b => some (.bitfield b)
  | .request r => some (.request r)
  | .cancel r => some (.cancel r)
  | _ => none

/-- C17. For every sequence of received messages: the block consumer gets exactly the pieces, the DHT exactly
the announced ports with the peer's own IP, the peer manager exactly the other messages tagged with the
sending peer, each in the order received. -/
theorem C17_dispatch (peer : Peer) (ms : List Message) :
    ((dispatchAll peer ms).filterMap fun d => match d with | .toPieces p => some p | _ => none) = piecesOf ms ∧
    ((dispatchAll peer ms).filterMap fun d => match d with | .toDht a => some a | _ => none)
      = (portsOf ms).map (fun p => (⟨peer.addr.ip, p⟩ : SockAddr)) ∧
    ((dispatchAll peer ms).filterMap fun d => match d with | .toPeers q c => some (q, asMessage c) | _ => none)
      = (otherOf ms).map (fun m => (peer, some m)) := by
  induction ms with
  | nil => exact ⟨rfl, rfl, rfl⟩
  | cons m ms ih =>
    obtain ⟨h1, h2, h3⟩ := ih
    have e : dispatchAll peer (m :: ms) = handleMessage peer m ++ dispatchAll peer ms := by
      simp [dispatchAll]
    rw [e]
    simp only [List.filterMap_append, h1, h2, h3]
    cases m <;> simp [handleMessage, ConMessageType.tryFrom, piecesOf, portsOf, otherOf, asMessage]

end Nargun
