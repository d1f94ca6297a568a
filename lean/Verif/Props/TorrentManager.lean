import Verif.Lemmas.Availability
import Verif.Props.Bitmap

/-! # C35–C40: the torrent manager -/

set_option linter.unusedSimpArgs false

namespace Nargun

open Spec TM

/-- A start state: a fresh manager for a non-empty list of piece hashes. -/
def Started (pieces : List ID) (s0 : TM) : Prop := pieces ≠ [] ∧ ∃ infoHash, TM.init pieces (.new infoHash) = .ok s0

theorem started_inv {pieces : List ID} {s0 : TM} (h : Started pieces s0) :
    Inv pieces.length s0 ∧ s0.activePeers = [] ∧ s0.frequencyMap = List.replicate pieces.length 0 ∧ s0.pieces = pieces := by
  obtain ⟨hp, ih, h⟩ := h
  obtain ⟨s, h1, h2⟩ := init_inv (peers := .new ih) hp List.nodup_nil
  rw [h] at h1
  cases h1
  exact h2

/-! ## Running concrete histories -/

/-- Inputs of a concrete history. -/
inductive Input where
  | insert (p : Peer)
  | tick (outs : List (Res Unit))
  | msg (peer : Peer) (m : ConMessageType)

/-- Runs the loop of a tick to its end; `outs` are the outcomes of the successive commands. -/
def TM.execStarts : Nat → List (Res Unit) → TM → Res (TM × List Event)
  | 0, _, s => .ok (s, [])
  | k + 1, outs, s => do
    let r ← s.selectPiece
    match r with
    | none => .ok ({ s with slots := 0 }, [.nothing])
    | some (peer, idx, h) => do
      let (s1, acc) ← s.startDownloadingPiece idx peer (outs.headD (.ok ()))
      let (s2, es) ← execStarts k outs.tail { s1 with slots := k }
      .ok (s2, .start peer idx h acc :: es)

/-- Runs the inputs and records the events. A tick runs to its end. -/
def TM.exec (p : Profile) : List Input → TM → Res (TM × List Event)
  | [], s => .ok (s, [])
  | .insert q :: is, s => do
    let (s', es) ← exec p is { s with peers := s.peers.insert q }
    .ok (s', .peers (.insert q) :: es)
  | .tick outs :: is, s => do
    if s.slots = 0 then
      let (s1, b) ← s.beginTick p
      let (s2, l) ← s1.execStarts s1.slots outs
      let (s', es) ← exec p is s2
      .ok (s', .tick b :: (l ++ es))
    else .err
  | .msg q m :: is, s => do
    if s.slots = 0 then
      let s1 ← s.handleCommand p q m
      let (s', es) ← exec p is s1
      .ok (s', .msg q m :: es)
    else .err

theorem Run.cons {p : Profile} {s s1 s2 : TM} {e : Event} {es : List Event} (hs : Step p s e s1) (h : Run p s1 es s2) :
    Run p s (e :: es) s2 := by
  induction h with
  | nil => exact Run.snoc (es := []) .nil hs
  | snoc hr hs' ih => exact Run.snoc (es := e :: _) ih hs'

theorem Run.append {p : Profile} {s s1 s2 : TM} {es es' : List Event} (h1 : Run p s es s1) (h2 : Run p s1 es' s2) :
    Run p s (es ++ es') s2 := by
  induction h2 with
  | nil => simpa using h1
  | snoc _ hs ih => rw [← List.append_assoc]; exact ih.snoc hs

theorem run_of_starts {p : Profile} {k : Nat} {outs : List (Res Unit)} {s s' : TM} {es : List Event} (hk : s.slots = k)
    (h : TM.execStarts k outs s = .ok (s', es)) : Run p s es s' := by
  induction k generalizing outs s es with
  | zero => cases h; exact .nil
  | succ k ih =>
    simp only [TM.execStarts] at h
    obtain ⟨r, hr, h⟩ := Res.bind_eq_ok.mp h
    cases r with
    | none => cases h; exact Run.snoc (es := []) .nil (.nothing hk hr)
    | some x =>
      obtain ⟨peer, idx, hash⟩ := x
      simp only at h
      obtain ⟨⟨s1, acc⟩, h1, h⟩ := Res.bind_eq_ok.mp h
      simp only at h
      obtain ⟨⟨s2, l⟩, h2, h⟩ := Res.bind_eq_ok.mp h
      cases h
      exact Run.cons (.start hk hr h1) (ih rfl h2)

theorem run_of_exec {p : Profile} {is : List Input} {s s' : TM} {es : List Event} (h : TM.exec p is s = .ok (s', es)) :
    Run p s es s' := by
  induction is generalizing s es with
  | nil => cases h; exact .nil
  | cons i is ih =>
    cases i with
    | insert q =>
      simp only [TM.exec] at h
      obtain ⟨⟨a, b⟩, h1, h⟩ := Res.bind_eq_ok.mp h
      cases h
      exact Run.cons (.peers .insert) (ih h1)
    | tick outs =>
      simp only [TM.exec] at h
      split at h
      case isFalse => cases h
      obtain ⟨⟨a, b⟩, h1, h⟩ := Res.bind_eq_ok.mp h
      simp only at h
      obtain ⟨⟨c, l⟩, h3, h⟩ := Res.bind_eq_ok.mp h
      simp only at h
      obtain ⟨⟨d, f⟩, h2, h⟩ := Res.bind_eq_ok.mp h
      cases h
      exact Run.cons (.tick ‹_› h1) (Run.append (run_of_starts rfl h3) (ih h2))
    | msg q m =>
      simp only [TM.exec] at h
      split at h
      case isFalse => cases h
      obtain ⟨a, h1, h⟩ := Res.bind_eq_ok.mp h
      obtain ⟨⟨d, f⟩, h2, h⟩ := Res.bind_eq_ok.mp h
      cases h
      exact Run.cons (.msg ‹_› h1) (ih h2)

/-- A concrete history from the fresh manager; the result of `f` on its final state and events. -/
def TM.demo {α : Type} (p : Profile) (pieces : List ID) (is : List Input) (f : TM → List Event → α) : Res α := do
  let s0 ← TM.init pieces (.new ⟨List.replicate 20 0#8, by decide⟩)
  let (s, es) ← s0.exec p is
  .ok (f s es)

theorem run_of_demo {α : Type} {p : Profile} {pieces : List ID} {is : List Input} {f : TM → List Event → α} {a : α}
    (hp : pieces ≠ []) (h : TM.demo p pieces is f = .ok a) :
    ∃ s0 s es, Started pieces s0 ∧ Run p s0 es s ∧ f s es = a := by
  simp only [TM.demo] at h
  obtain ⟨s0, h0, h⟩ := Res.bind_eq_ok.mp h
  obtain ⟨⟨s, es⟩, h1, h⟩ := Res.bind_eq_ok.mp h
  cases h
  exact ⟨s0, s, es, ⟨hp, _, h0⟩, run_of_exec h1, rfl⟩

/-- Two piece hashes for the examples. -/
def twoPieces : List ID := [⟨List.replicate 20 1#8, by decide⟩, ⟨List.replicate 20 2#8, by decide⟩]

/-! ## C35 -/

/-- C35: in every state reached by any history (any build, any order of map entries, any outcome of the attempts
to start a download), at most 10 peers are active, at most 9 pieces are in progress, at most 4 pieces are
assigned to one peer; and neither the beginning of a timer tick nor the selection of a piece panics (so the free-slot
subtractions never underflow), nor does the attempt to start the download of the selected piece, whatever happens to the
command, as long as no other task died holding the shared lock. -/
theorem C35_limits (p : Profile) (pieces : List ID) (s0 s : TM) (es : List Event) (h0 : Started pieces s0)
    (h : Run p s0 es s) :
    s.activePeers.length ≤ 10 ∧
    countBelow (fun i => decide (s.activePieces.get i = .ok true)) pieces.length ≤ 9 ∧
    (∀ peer info, s.activePeers.get? peer = some info →
      countBelow (fun i => decide (info.working.get i = .ok true)) pieces.length ≤ 4) ∧
    (∃ r, s.beginTick p = .ok r) ∧ (∃ r, s.selectPiece = .ok r) ∧
    ∀ peer idx hash sent, 0 < s.slots → s.selectPiece = .ok (some (peer, idx, hash)) → sent ≠ .panic →
      ∃ r, s.startDownloadingPiece idx peer sent = .ok r := by
  obtain ⟨i0, i1, i2, i3⟩ := started_inv h0
  obtain ⟨hi, _, _⟩ := run_inv h i0 i1
  have hle : ∀ b : Bitmap, b.WF → b.len = pieces.length →
      countBelow (fun i => decide (b.get i = .ok true)) pieces.length ≤ b.weight := by
    intro b hb hl
    have := C03_bitmap_weight_partial b hb
    rw [this, Bitmap.heldPieces, hl]
    omega
  have hw := hi.weight
  refine ⟨hi.len, Nat.le_trans (hle _ hi.act.2 hi.act.1) (by omega), ?_, tick_ok hi, select_ok hi, ?_⟩
  case refine_2 =>
    intro peer idx hash sent h1 h2 h3
    obtain ⟨k, hk⟩ : ∃ k, s.slots = k + 1 := ⟨s.slots - 1, by omega⟩
    exact start_ok hi hk h2 h3
  intro peer info hg
  have hio := get?_infoOk hi hg
  exact Nat.le_trans (hle _ hio.2.2.2.1 hio.2.2.1) hio.2.2.2.2

/-- Eleven known peers, all of which are connectable: ten become active. With one unchoked peer that has both
pieces, one piece is in progress. -/
example : (TM.demo .debug twoPieces ((List.range 11).map (fun i => .insert ⟨⟨⟨10#8, 0#8, 0#8, BitVec.ofNat 8 i⟩, 6881#16⟩⟩) ++
    [.tick [], .msg ⟨⟨⟨10#8, 0#8, 0#8, 3#8⟩, 6881#16⟩⟩ (.bitfield [0xc0]),
     .msg ⟨⟨⟨10#8, 0#8, 0#8, 3#8⟩, 6881#16⟩⟩ .unchoke, .tick []])
    (fun s _ => (s.activePeers.length, s.activePieces.weight))) = .ok (10, 1) := by decide +kernel

/-! ## C36 -/

theorem cnt_eq_holds {n : Nat} {s : TM} {es : List Event} (hi : Inv n s)
    (hv : ∀ q, view n q es = (s.activePeers.get? q).map viewOf) (i : Nat) :
    s.cnt i = (s.activePeers.keys.filter (holds n es i)).length := by
  have : ∀ m : Map Peer PeerInfo, (∀ e ∈ m, s.activePeers.get? e.1 = some e.2) →
      m.count (fun x => bitAt x.haves.data i) = (m.keys.filter (holds n es i)).length := by
    intro m hm
    induction m with
    | nil => rfl
    | cons e m ih =>
      rw [Map.count_cons, ih (fun e he => hm e (List.mem_cons_of_mem _ he))]
      have hh : holds n es i e.1 = bitAt e.2.haves.data i := by
        simp only [holds, hv, hm e (by simp), Option.map_some, viewOf]
      show _ = ((e.1 :: Map.keys m).filter _).length
      rw [List.filter_cons, hh]
      cases bitAt e.2.haves.data i <;> simp
  exact this _ (fun e he => Map.get?_of_mem hi.wf he)

/-- C36, part: as long as no tick connects to a peer that is active already, the availability of every piece is
exactly the number of active peers that have announced it, in every history and build. -/
theorem C36_availability_partial (p : Profile) (pieces : List ID) (s0 s : TM) (es : List Event)
    (h0 : Started pieces s0) (h : Run p s0 es s) (hn : NoRejoin pieces.length es) (i : Nat) (hi : i < pieces.length) :
    s.frequencyMap[i]? = some ((s.activePeers.keys.filter (holds pieces.length es i)).length) := by
  obtain ⟨i0, i1, i2, i3⟩ := started_inv h0
  obtain ⟨hi', _, hv⟩ := run_inv h i0 i1
  have := (run_counters h i0 i1 i2 (.inr hn)).2 hn i hi
  rw [cnt_eq_holds hi' hv] at this
  rw [← this]
  simp only [List.getD]
  rw [List.getElem?_eq_getElem (by rw [hi'.freq]; exact hi)]
  rfl

/-- C36, part: in a debug build the availability never falls below that number, in any history at all. -/
theorem C36_at_least_partial (pieces : List ID) (s0 s : TM) (es : List Event)
    (h0 : Started pieces s0) (h : Run .debug s0 es s) (i : Nat) (hi : i < pieces.length) :
    ∃ f, s.frequencyMap[i]? = some f ∧ (s.activePeers.keys.filter (holds pieces.length es i)).length ≤ f := by
  obtain ⟨i0, i1, i2, i3⟩ := started_inv h0
  obtain ⟨hi', _, hv⟩ := run_inv h i0 i1
  have := (run_counters h i0 i1 i2 (.inl rfl)).1.2 i hi
  rw [cnt_eq_holds hi' hv] at this
  refine ⟨_, List.getElem?_eq_getElem (by rw [hi'.freq]; exact hi), ?_⟩
  simpa [List.getD, List.getElem?_eq_getElem (show i < s.frequencyMap.length by rw [hi'.freq]; exact hi)] using this

/-- C36, part: the exact value in every history and build. The availability is the number of active peers that have
announced the piece, and of the times a peer was connected to again while it was active and had announced it, modulo 2^16.
In a debug build the sum never reaches 2^16. -/
theorem C36_exact_partial (p : Profile) (pieces : List ID) (s0 s : TM) (es : List Event)
    (h0 : Started pieces s0) (h : Run p s0 es s) (i : Nat) (hi : i < pieces.length) :
    s.frequencyMap[i]? =
      some (((s.activePeers.keys.filter (holds pieces.length es i)).length + rejoined pieces.length es i) % 65536) ∧
    (p = .debug → (s.activePeers.keys.filter (holds pieces.length es i)).length + rejoined pieces.length es i < 65536) := by
  obtain ⟨i0, i1, i2, i3⟩ := started_inv h0
  obtain ⟨hi', _, hv⟩ := run_inv h i0 i1
  obtain ⟨r1, r2⟩ := run_availability h i0 i1 i2
  have r2 := r2 i hi
  have hd : p = .debug → s.frequencyMap.getD i 0 = s.cnt i + rejoined pieces.length es i := by
    rintro rfl
    exact run_availability_debug h i0 i1 i2 i hi
  rw [cnt_eq_holds hi' hv] at r2 hd
  refine ⟨?_, fun hp => ?_⟩
  · rw [← r2]
    simp only [List.getD]
    rw [List.getElem?_eq_getElem (by rw [hi'.freq]; exact hi)]
    rfl
  · have := hd hp
    have := r1 i
    omega

/-- Two peers with one common piece, one of which leaves again. -/
example : TM.demo .release twoPieces [.insert peerA, .insert peerB, .tick [], .msg peerA (.bitfield [0xc0]),
      .msg peerB (.have_ 1#32), .msg peerB (.have_ 1#32), .msg peerA .disconnected]
    (fun s es => (s.frequencyMap, s.activePeers.keys.filter (holds 2 es 0), s.activePeers.keys.filter (holds 2 es 1)))
    = .ok ([0, 1], [], [peerB]) := by decide +kernel

/-- C36 is false of the program: an active peer that is announced again (by the tracker, the DHT or itself) is
connected to again at the next tick; what it had announced stays counted. Here the piece counts as available
although the only active peer has announced nothing. -/
theorem C36_rejoin_violated (p : Profile) : ∃ (pieces : List ID) (s0 s : TM) (es : List Event), Started pieces s0 ∧
    Run p s0 es s ∧ s.frequencyMap[0]? = some 1 ∧ s.activePeers.keys = [peerA] ∧
    s.activePeers.keys.filter (holds pieces.length es 0) = [] := by
  have h : TM.demo p twoPieces
      [.insert peerA, .tick [], .msg peerA (.have_ 0#32), .insert peerA, .tick []]
      (fun s es => (s.frequencyMap[0]?, s.activePeers.keys, s.activePeers.keys.filter (holds 2 es 0)))
      = .ok (some 1, [peerA], []) := by
    cases p <;> decide +kernel
  obtain ⟨s0, s, es, h0, h1, h2⟩ := run_of_demo (by decide) h
  simp only [Prod.mk.injEq] at h2
  exact ⟨twoPieces, s0, s, es, h0, h1, h2⟩

/-! ## C37 -/

/-- C37: in any state (reachable or not, entries in any order), a selected peer is active, does not choke us, has
the piece and fewer than 4 pieces assigned; the piece is missing, available and assigned to fewer than 3 peers;
and the hash is that of the piece. -/
theorem C37_selected_feasible (s : TM) (hw : s.localData.WF) (peer : Peer) (idx : Nat) (hash : ID)
    (h : s.selectPiece = .ok (some (peer, idx, hash))) :
    (∃ info, (peer, info) ∈ s.activePeers ∧ info.choking = false ∧ info.haves.get idx = .ok true ∧
      info.working.weight < 4) ∧
    s.localData.get idx = .ok false ∧ 0 < s.frequencyMap.getD idx 0 ∧ s.assignedPeerCount.getD idx 0 < 3 ∧
    s.pieces[idx]? = some hash := by
  obtain ⟨s1, s2⟩ := select_some h
  obtain ⟨h1, h2, h3, h4, h5, h6⟩ := sequential_some hw s1
  refine ⟨h1, ?_, h4, h6, s2⟩
  have hb := bytes_of_wf hw
  rw [Bitmap.get_of_lt _ _ (by omega), h3]

/-- C37 for histories: everything that is asked for is asked of an active peer that, by its own messages, does not choke
us and has the piece; the piece is missing and the hash is the one of the torrent. -/
theorem C37_started_feasible (p : Profile) (pieces : List ID) (s0 s : TM) (es : List Event)
    (peer : Peer) (idx : Nat) (hash : ID) (acc : Bool) (h0 : Started pieces s0)
    (h : Run p s0 (es ++ [.start peer idx hash acc]) s) :
    pieces[idx]? = some hash ∧ s.localData.get idx = .ok false ∧
      ∃ v, view pieces.length peer es = some v ∧ v.choking = false ∧ v.announced idx = true := by
  obtain ⟨i0, i1, i2, i3⟩ := started_inv h0
  generalize hes : es ++ [Event.start peer idx hash acc] = es' at h
  cases h with
  | nil => simp at hes
  | @snoc s1 _ es1 e hr hs =>
    obtain ⟨rfl, he⟩ := List.append_inj' hes rfl
    cases he
    cases hs with
    | start hk hsel hst =>
    obtain ⟨hi, hp, hv⟩ := run_inv hr i0 i1
    obtain ⟨⟨f1, f2, info, f3, f4, f5⟩, _⟩ := select_feasible hi hsel
    have hsame := (start_spec hi hk hsel hst).2
    rw [hp, i3] at f1
    refine ⟨f1, by rw [hsame.loc]; exact f2, ?_⟩
    have hidx : idx < pieces.length := (List.getElem?_eq_some_iff.mp f1).1
    have hio := get?_infoOk hi f3
    have hb := bytes_of_wf hio.2.1
    rw [hio.1] at hb
    rw [Bitmap.get_of_lt _ _ (by show idx / 8 < _; omega)] at f5
    exact ⟨viewOf info, by rw [hv, f3]; rfl, f4, Res.ok.inj f5⟩

/-- C37 for histories: a piece that is asked for counts as in progress, and as worked on by the peer it is asked of, if and
only if the request is handed over to the connection of that peer; nothing else that is known of this peer, of other peers
and of other pieces changes. -/
theorem C37_marked (p : Profile) (pieces : List ID) (s0 s s' : TM) (es : List Event)
    (peer : Peer) (idx : Nat) (hash : ID) (acc : Bool) (h0 : Started pieces s0) (h : Run p s0 es s)
    (hs : Step p s (.start peer idx hash acc) s') :
    (acc = false → s'.activePieces = s.activePieces ∧ s'.activePeers = s.activePeers) ∧
    (acc = true → s'.activePieces.get idx = .ok true ∧ (∀ j, j ≠ idx → s'.activePieces.get j = s.activePieces.get j) ∧
      (∀ q, q ≠ peer → s'.activePeers.get? q = s.activePeers.get? q) ∧
      ∃ info info', s.activePeers.get? peer = some info ∧ s'.activePeers.get? peer = some info' ∧
        info'.choking = info.choking ∧ info'.haves = info.haves ∧
        info'.working.get idx = .ok true ∧ ∀ j, j ≠ idx → info'.working.get j = info.working.get j) := by
  obtain ⟨i0, i1, _, _⟩ := started_inv h0
  have hi := (run_inv h i0 i1).1
  cases hs with
  | @start k _ _ _ sent s1 _ hk hsel hst =>
  obtain ⟨_, f2, info, f3, f4⟩ := select_feasible hi hsel
  simp only [TM.startDownloadingPiece] at hst
  cases hd : s.connection.downloadPiece peer sent with
  | err => rw [hd] at hst; cases hst; exact ⟨fun _ => ⟨rfl, rfl⟩, fun h => by cases h⟩
  | panic => rw [hd] at hst; cases hst
  | ok u =>
    rw [hd] at hst
    have hio := get?_infoOk hi f3
    obtain ⟨n0, hn0, _⟩ := info_new hi.npos
    obtain ⟨a, o, a1, _, a2, a3, _⟩ := C01_bitmap_change s.activePieces hi.act.2 idx (by rw [hi.act.1]; exact f2) true
    obtain ⟨w, o', w1, _, w2, w3, _⟩ := C01_bitmap_change info.working hio.2.2.2.1 idx (by rw [hio.2.2.1]; exact f2) true
    have hm : s.markPieceAsOngoing peer idx =
        .ok { s with activePieces := a, activePeers := s.activePeers.insert peer { info with working := w } } := by
      simp [TM.markPieceAsOngoing, hi.act.1, hn0, f3, a1, w1]
    simp only [hm, Res.ok_bind] at hst
    cases hst
    refine ⟨(fun h => by cases h), fun _ => ⟨a2, a3, ?_, info, { info with working := w }, f3, ?_, rfl, rfl, w2, w3⟩⟩
    · intro q hq
      show (s.activePeers.insert peer { info with working := w }).get? q = _
      rw [Map.get?_insert]; simp [hq]
    · show (s.activePeers.insert peer { info with working := w }).get? peer = _
      rw [Map.get?_insert]; simp

/-- C37 for histories: between two timer ticks at most 9 downloads are asked for. -/
theorem C37_nine_per_tick (p : Profile) (pieces : List ID) (s0 s : TM) (es1 es2 : List Event) (h0 : Started pieces s0)
    (h : Run p s0 (es1 ++ es2) s) (hno : ∀ e ∈ es2, isTick e = false) : es2.countP isStart ≤ 9 := by
  obtain ⟨i0, i1, i2, i3⟩ := started_inv h0
  suffices hs : es2.countP isStart + s.slots ≤ 9 by omega
  generalize hes : es1 ++ es2 = es at h
  induction h generalizing es2 with
  | nil =>
    obtain ⟨rfl, rfl⟩ := List.append_eq_nil_iff.mp hes
    have := i0.weight
    simp only [List.countP_nil]; omega
  | @snoc s1 s2 es' e hr hs ih =>
    have hi := (run_inv (hr.snoc hs) i0 i1).1
    rcases List.eq_nil_or_concat es2 with rfl | ⟨es2', y, rfl⟩
    · have := hi.weight
      simp only [List.countP_nil]; omega
    · rw [List.concat_eq_append, ← List.append_assoc] at hes
      obtain ⟨h1, h2⟩ := List.append_inj' hes rfl
      cases h2
      have ih' := ih es2' (fun e he => hno e (by simp [he])) h1
      rw [List.concat_eq_append, List.countP_append, List.countP_singleton]
      have hy := hno e (by simp)
      cases hs with
      | peers => simpa [isStart] using ih'
      | reorder => simpa [isStart] using ih'
      | tick => cases hy
      | start hk => simp only [isStart, if_true]; omega
      | nothing hk => simp only [isStart]; simp only [Bool.false_eq_true, if_false]; omega
      | @msg peer m _ hk hm =>
        have : s2.slots = 0 := by rw [← hk]; exact (handle_slots hm).1
        simp only [isStart, this, Bool.false_eq_true, if_false]; omega

/-- Peer B (unchoked, has the second piece only) is asked for it; peer A chokes. -/
example : TM.demo .debug twoPieces [.insert peerA, .insert peerB, .tick [], .msg peerB (.have_ 1#32), .msg peerB .unchoke]
    (fun s _ => s.selectPiece) = .ok (.ok (some (peerB, 1, ⟨List.replicate 20 2#8, by decide⟩))) := by decide +kernel

/-- The hypotheses of `C37_marked` are met with both outcomes: if all nine requests of a tick fail, the piece is not in
progress; if the first is handed over, it is, and peer B works on it. -/
example : TM.demo .debug twoPieces [.insert peerA, .insert peerB, .tick [], .msg peerB (.have_ 1#32), .msg peerB .unchoke,
      .tick (List.replicate 9 .err)]
      (fun s es => (es.countP isStart, s.activePieces.get 1, (s.activePeers.get? peerB).map (·.working.get 1))) =
      .ok (9, .ok false, some (.ok false)) ∧
    TM.demo .debug twoPieces [.insert peerA, .insert peerB, .tick [], .msg peerB (.have_ 1#32), .msg peerB .unchoke,
      .tick [.ok ()]]
      (fun s _ => (s.activePieces.get 1, (s.activePeers.get? peerB).map (·.working.get 1),
        (s.activePeers.get? peerA).map (·.working.get 1))) =
      .ok (.ok true, some (.ok true), some (.ok false)) := by
  constructor <;> decide +kernel

/-! ## C38 -/

theorem findAssigned_zero {s : TM} {x : Nat × Nat × Nat} {it : List (Nat × Nat × Nat)}
    (h : s.assignedPeerCount[x.1]? = some 0) : findAssigned s 0 (x :: it) = .ok (some x.1) := by
  simp only [findAssigned, index_eq_ok.mpr h, Res.ok_bind, if_true]

/-- C38, part: let `idx` be the first missing piece anybody has. If an unchoked active peer with fewer than 4
assigned pieces has it, then a download of this piece is selected, from a peer with the fewest assigned pieces
among those that could deliver it. This holds in every reachable state, in any order of the peers.
Missing: later pieces are never looked at. -/
theorem C38_first_piece_partial (p : Profile) (pieces : List ID) (s0 s : TM) (es : List Event)
    (h0 : Started pieces s0) (h : Run p s0 es s)
    (idx : Nat) (hidx : idx < pieces.length) (hm : s.localData.get idx = .ok false) (hf : 0 < s.frequencyMap.getD idx 0)
    (hfirst : ∀ j < idx, s.localData.get j = .ok true ∨ s.frequencyMap.getD j 0 = 0)
    (q : Peer) (qi : PeerInfo) (hq : (q, qi) ∈ s.activePeers) (hc : qi.choking = false)
    (hh : qi.haves.get idx = .ok true) (hw : qi.working.weight < 4) :
    ∃ peer hash info, s.selectPiece = .ok (some (peer, idx, hash)) ∧ pieces[idx]? = some hash ∧
      (peer, info) ∈ s.activePeers ∧ info.choking = false ∧ info.haves.get idx = .ok true ∧
      ∀ r ri, (r, ri) ∈ s.activePeers → ri.choking = false → ri.haves.get idx = .ok true →
        info.working.weight ≤ ri.working.weight := by
  obtain ⟨i0, i1, i2, i3⟩ := started_inv h0
  obtain ⟨hi, hp, _⟩ := run_inv h i0 i1
  rw [i3] at hp
  have hlocb := bytes_of_wf hi.loc.2
  rw [hi.loc.1] at hlocb
  -- the first remaining piece is `idx`
  have hrem : ∃ it, s.remaining ((List.range s.localData.len).map (bitAt s.localData.data)) =
      (idx, s.frequencyMap.getD idx 0, 0) :: it := by
    have hfl := hi.freq
    have hal : s.assignedPeerCount.length = pieces.length := by rw [hi.asg]; simp
    generalize hL : ((((List.range s.localData.len).map (bitAt s.localData.data)).zipIdx.zip s.frequencyMap).zip
      s.assignedPeerCount) = L
    have hLl : L.length = pieces.length := by
      rw [← hL]; simp [hi.loc.1, hfl, hal]
    have hLg : ∀ j (hj : j < L.length), L[j] = (((bitAt s.localData.data j, j), s.frequencyMap.getD j 0), 0) := by
      intro j hj
      subst hL
      have h1 : j < s.frequencyMap.length := by omega
      simp [hi.asg, List.getD, List.getElem?_eq_getElem h1]
    have hsplit : L = L.take idx ++ L[idx]'(by omega) :: L.drop (idx + 1) := by simp
    have hbit : ∀ j < pieces.length, s.localData.get j = .ok (bitAt s.localData.data j) := by
      intro j hj; exact Bitmap.get_of_lt _ _ (by omega)
    simp only [remaining, hL]
    rw [hsplit, List.filter_append]
    have hnil : (L.take idx).filter (fun x => !x.1.1.1 && decide (x.1.2 > 0)) = [] := by
      rw [List.filter_eq_nil_iff]
      intro x hx
      obtain ⟨j, hj, rfl⟩ := List.mem_iff_getElem.mp hx
      rw [List.length_take] at hj
      rw [List.getElem_take, hLg]
      rcases hfirst j (by omega) with h | h
      · rw [hbit j (by omega)] at h
        simp [Res.ok.inj h]
      · simp only [h]; simp
    have hlocb : bitAt s.localData.data idx = false := by
      rw [hbit idx hidx] at hm; exact Res.ok.inj hm
    rw [hnil, List.nil_append, List.filter_cons, hLg]
    simp only [hlocb, hf, Bool.not_false, decide_true, Bool.and_self, if_true, List.map_cons]
    exact ⟨_, rfl⟩
  obtain ⟨it, hit⟩ := hrem
  have hz : s.assignedPeerCount[idx]? = some 0 := by rw [hi.asg]; simp [List.getElem?_replicate, hidx]
  have hfa : findAssigned s 0 (s.remaining ((List.range s.localData.len).map (bitAt s.localData.data))) =
      .ok (some idx) := by
    rw [hit]; exact findAssigned_zero hz
  obtain ⟨r, hr⟩ := sequential_ok hi
  have hr' := hr
  simp only [sequentialSelectPiece, Bitmap.toBools_eq hi.loc.2, Res.ok_bind] at hr
  have hzero : ∀ j, j < 4 → j / 4 = 0 := fun j hj => Nat.div_eq_of_lt hj
  cases r with
  | none =>
    exfalso
    have := selectLoop_none hr qi.working.weight (by omega) (by omega) idx (by rw [hzero _ hw]; exact hfa)
    exact findPeer_none this hq hc hh (by omega)
  | some x =>
    obtain ⟨peer, i⟩ := x
    obtain ⟨j, j1, j2, j3, j4, j5⟩ := selectLoop_some hr
    have hj : j ≤ qi.working.weight := by
      apply Classical.byContradiction
      intro hn
      have := j5 qi.working.weight (by omega) (by omega) idx (by rw [hzero _ hw]; exact hfa)
      exact findPeer_none this hq hc hh (by omega)
    have hj4 : j < 4 := by omega
    rw [hzero j hj4, hfa] at j3
    cases j3
    obtain ⟨info, k1, k2, k3, k4⟩ := findPeer_some j4
    refine ⟨peer, pieces[idx], info, ?_, List.getElem?_eq_getElem hidx, k1, k2, k3, ?_⟩
    · simp only [selectPiece, hr', Res.ok_bind, hp, List.getElem?_eq_getElem hidx, Res.unwrap]
    · intro r ri hr hrc hrh
      apply Classical.byContradiction
      intro hn
      have := j5 ri.working.weight (by omega) (by omega) idx (by rw [hzero _ (by omega)]; exact hfa)
      exact findPeer_none this hr hrc hrh (by omega)

/-- The hypotheses are met: two unchoked peers with the first piece. -/
example : TM.demo .debug twoPieces [.insert peerA, .insert peerB, .tick [], .msg peerA (.have_ 0#32), .msg peerA .unchoke,
      .msg peerB (.have_ 0#32), .msg peerB .unchoke]
    (fun s _ => (s.localData.get 0, s.frequencyMap, (s.selectPiece >>= fun x => Res.ok (x.map (fun y => y.2.1))))) =
    .ok (.ok false, [2, 0], .ok (some 0)) := by decide +kernel

/-- C38 is false of the program: the second piece could be downloaded from peer B, but nothing is selected,
because peer A, which chokes us, has the first piece. -/
theorem C38_blocked_violated (p : Profile) : ∃ (pieces : List ID) (s0 s : TM) (es : List Event), Started pieces s0 ∧
    Run p s0 es s ∧ s.localData.get 1 = .ok false ∧
    (∃ info, (peerB, info) ∈ s.activePeers ∧ info.choking = false ∧ info.haves.get 1 = .ok true ∧
      info.working.weight = 0) ∧
    s.selectPiece = .ok none := by
  have h : TM.demo p twoPieces
      [.insert peerA, .insert peerB, .tick [], .msg peerA (.have_ 0#32), .msg peerB (.have_ 1#32), .msg peerB .unchoke]
      (fun s _ => (s.localData.get 1,
        (s.activePeers.get? peerB).map (fun i => (i.choking, i.haves.get 1, i.working.weight)), decide (s.selectPiece = .ok none)))
      = .ok (.ok false, some (false, .ok true, 0), true) := by
    cases p <;> decide +kernel
  obtain ⟨s0, s, es, h0, h1, h2⟩ := run_of_demo (by decide) h
  simp only [Prod.mk.injEq, Option.map_eq_some_iff] at h2
  obtain ⟨h3, ⟨info, h4, h5⟩, h6⟩ := h2
  exact ⟨twoPieces, s0, s, es, h0, h1, h3, ⟨info, Map.mem_of_get? h4, h5⟩, of_decide_eq_true h6⟩

/-- C38 is false of the program: one tick asks the same peer nine times for the same piece, although it has
another one that is missing, too. -/
theorem C38_repeated_violated (p : Profile) : ∃ (pieces : List ID) (s0 s : TM) (es : List Event) (hash : ID),
    Started pieces s0 ∧ Run p s0 (es ++ .tick [] :: List.replicate 9 (.start peerA 0 hash true)) s ∧
    (∃ info, (peerA, info) ∈ s.activePeers ∧ info.haves.get 0 = .ok true ∧ info.haves.get 1 = .ok true) ∧
    s.localData.get 1 = .ok false := by
  have h : TM.demo p twoPieces
      [.insert peerA, .tick [], .msg peerA (.bitfield [0xc0]), .msg peerA .unchoke, .tick []]
      (fun s es => (decide (es = [.peers (.insert peerA), .tick [peerA], .nothing, .msg peerA (.bitfield [0xc0]),
          .msg peerA .unchoke] ++ .tick [] :: List.replicate 9 (.start peerA 0 ⟨List.replicate 20 1#8, by decide⟩ true)),
        s.localData.get 1, (s.activePeers.get? peerA).map (fun i => (i.haves.get 0, i.haves.get 1))))
      = .ok (true, .ok false, some (.ok true, .ok true)) := by
    cases p <;> decide +kernel
  obtain ⟨s0, s, es, h0, h1, h2⟩ := run_of_demo (by decide) h
  simp only [Prod.mk.injEq, Option.map_eq_some_iff] at h2
  obtain ⟨h5, h7, info, h8, h9⟩ := h2
  have h5 := of_decide_eq_true h5
  subst h5
  exact ⟨twoPieces, s0, s, _, _, h0, h1, ⟨info, Map.mem_of_get? h8, h9⟩, h7⟩

/-! ## C39 -/

/-- The messages the manager can deal with in a torrent of `n` pieces. -/
def Spec.handled (n : Nat) : ConMessageType → Prop
  | .request _ => False
  | .cancel _ => False
  | .finishedPiece _ _ => False
  | .have_ i => i.toNat < n
  | _ => True

/-- C39, part: after any history, any message of any peer is handled without a panic, except the three kinds that are not
implemented and `have` with a piece number out of range; and so is the timer tick (`C35_limits`). In a debug build this
supposes that no piece was in 65525 cases announced by a peer that was connected to again while it was active. -/
theorem C39_no_crash_partial (p : Profile) (pieces : List ID) (s0 s : TM) (es : List Event)
    (h0 : Started pieces s0) (h : Run p s0 es s)
    (hn : p = .debug → ∀ i < pieces.length, rejoined pieces.length es i < 65525)
    (peer : Peer) (m : ConMessageType) (hm : handled pieces.length m) : ∃ s', s.handleCommand p peer m = .ok s' := by
  obtain ⟨i0, i1, i2, i3⟩ := started_inv h0
  obtain ⟨hi, _, hv⟩ := run_inv h i0 i1
  cases p with
  | release =>
    cases m with
    | unreachable => exact inactive_release hi peer _
    | disconnected => exact inactive_release hi peer _
    | have_ i => exact have_release hi peer hm
    | bitfield b => exact bitfield_release hi peer b
    | request r => cases hm
    | finishedPiece i bs => cases hm
    | cancel r => cases hm
    | _ => exact ⟨_, rfl⟩
  | debug =>
    obtain ⟨⟨_, hge⟩, _⟩ := run_counters h i0 i1 i2 (.inl rfl)
    have heq := run_availability_debug h i0 i1 i2
    have hsmall : ∀ i, s.frequencyMap.getD i 0 < 65535 := by
      intro i
      by_cases hlt : i < pieces.length
      · rw [heq i hlt]
        have := Map.count_le_length (fun x : PeerInfo => bitAt x.haves.data i) s.activePeers
        have := hi.len
        have := hn rfl i hlt
        simp only [cnt]; omega
      · simp only [List.getD]
        rw [List.getElem?_eq_none (by rw [hi.freq]; omega)]; simp
    cases m with
    | unreachable => exact inactive_ok hi hge peer _
    | disconnected => exact inactive_ok hi hge peer _
    | have_ i => exact have_ok hi hsmall peer hm
    | bitfield b => exact bitfield_ok hi hsmall peer b
    | request r => cases hm
    | finishedPiece i bs => cases hm
    | cancel r => cases hm
    | _ => exact ⟨_, rfl⟩

/-- The bound in C39 is the right one: in a debug build, a peer that announces a piece for the first time since it joined
crashes the manager when the holders and the re-connected holders of the piece are 65535. -/
theorem C39_overflow_partial (pieces : List ID) (s0 s : TM) (es : List Event)
    (h0 : Started pieces s0) (h : Run .debug s0 es s) (peer : Peer) (v : PeerView) (k : U32) (hk : k.toNat < pieces.length)
    (hv : view pieces.length peer es = some v) (hnew : v.announced k.toNat = false) :
    s.handleCommand .debug peer (.have_ k) = .panic ↔
      (s.activePeers.keys.filter (holds pieces.length es k.toNat)).length + rejoined pieces.length es k.toNat = 65535 := by
  obtain ⟨i0, i1, i2, i3⟩ := started_inv h0
  obtain ⟨hi, _, hvs⟩ := run_inv h i0 i1
  have hd := run_availability_debug h i0 i1 i2 k.toNat hk
  rw [cnt_eq_holds hi hvs] at hd
  have r1 := (run_availability h i0 i1 i2).1 k.toNat
  rw [hvs] at hv
  obtain ⟨info, hg, rfl⟩ := Option.map_eq_some_iff.mp hv
  have hio := get?_infoOk hi hg
  have hb := bytes_of_wf hio.2.1
  obtain ⟨b', c1, _⟩ := Bitmap.change_set hio.2.1 (i := k.toNat) (by rw [hio.1] at hb; omega)
  have hnew' : bitAt info.haves.data k.toNat = false := hnew
  have hkl : k.toNat < s.frequencyMap.length := by rw [hi.freq]; exact hk
  simp only [handleCommand, handleHave, hg, c1, Res.ok_bind, hnew', Bool.false_eq_true, if_false, index_lt hkl]
  have hfe : s.frequencyMap.getD k.toNat 0 = s.frequencyMap[k.toNat] := by simp [List.getD, List.getElem?_eq_getElem hkl]
  rw [hfe] at hd r1
  simp only [u16Add]
  split <;> simp <;> omega

/-- The conditions of the two theorems are met: an active peer is connected to again, the counter is one too high, and the
manager goes on in both builds. -/
example : TM.demo .debug twoPieces [.insert peerA, .tick [], .msg peerA (.have_ 0#32), .insert peerA, .tick [],
      .msg peerA (.have_ 0#32)]
    (fun s es => (s.frequencyMap, rejoined 2 es 0, rejoined 2 es 1, (view 2 peerA es).map (·.announced 1))) =
      .ok ([2, 0], 1, 0, some false) := by
  decide +kernel

/-- C39 is false of the program: `request`, `cancel` and the report of a finished piece crash the manager in every
state, from any peer. -/
theorem C39_unimplemented_violated (p : Profile) (s : TM) (peer : Peer) (r : Request) (i : Nat) (bs : List Bytes) :
    s.handleCommand p peer (.request r) = .panic ∧ s.handleCommand p peer (.cancel r) = .panic ∧
    s.handleCommand p peer (.finishedPiece i bs) = .panic := ⟨rfl, rfl, rfl⟩

/-- C39 is false of the program: after any history, a `have` from an active peer for a piece number beyond the
bitmap crashes the manager. -/
theorem C39_have_out_of_range_violated (p : Profile) (pieces : List ID) (s0 s : TM) (es : List Event)
    (h0 : Started pieces s0) (h : Run p s0 es s) (peer : Peer) (hp : peer ∈ s.activePeers.keys) (i : U32)
    (hi : 8 * ((pieces.length + 7) / 8) ≤ i.toNat) : s.handleCommand p peer (.have_ i) = .panic := by
  obtain ⟨i0, i1, i2, i3⟩ := started_inv h0
  obtain ⟨hi', _, hv⟩ := run_inv h i0 i1
  cases hg : s.activePeers.get? peer with
  | none => exact absurd hp (Map.get?_eq_none.mp hg)
  | some info =>
    have hio := get?_infoOk hi' hg
    simp only [handleCommand, handleHave, hg]
    rw [Bitmap.change_of_ge _ _ _ (by rw [hio.2.1.2, hio.1]; omega)]
    rfl

/-- An active peer exists in a concrete history, and its `have 8` in a torrent of two pieces panics. -/
example : TM.demo .release twoPieces [.insert peerA, .tick []]
    (fun s _ => (s.activePeers.keys, s.handleCommand .release peerA (.have_ 8#32))) = .ok ([peerA], .panic) := by
  decide +kernel

/-- ... and so does a `have` within the last byte of the bitmap but beyond the last piece. -/
example : TM.demo .release twoPieces [.insert peerA, .tick []]
    (fun s _ => s.handleCommand .release peerA (.have_ 5#32)) = .ok .panic := by
  decide +kernel

/-! ## C40 -/

/-- C40: after any history, the manager's knowledge of a peer is what the peer has told it since it last joined:
it is active iff it joined and has not left; it is choking us iff its last `choke`/`unchoke` was `choke` (or none
was received); the pieces it has are those it announced (see `Spec.PeerView.hear`). -/
theorem C40_peer_state (p : Profile) (pieces : List ID) (s0 s : TM) (es : List Event)
    (h0 : Started pieces s0) (h : Run p s0 es s) (peer : Peer) :
    match view pieces.length peer es, s.activePeers.get? peer with
    | none, none => True
    | some v, some info => info.choking = v.choking ∧ ∀ i < pieces.length, info.haves.get i = .ok (v.announced i)
    | _, _ => False := by
  obtain ⟨i0, i1, i2, i3⟩ := started_inv h0
  obtain ⟨hi, _, hv⟩ := run_inv h i0 i1
  rw [hv]
  cases hg : s.activePeers.get? peer with
  | none => simp
  | some info =>
    have hio := get?_infoOk hi hg
    have hb := bytes_of_wf hio.2.1
    rw [hio.1] at hb
    simp only [Option.map_some, viewOf, true_and]
    intro i hlt
    exact Bitmap.get_of_lt _ _ (by omega)

/-- A bitfield, a have, choking, and a second bitfield that does not count. -/
example : TM.demo .debug twoPieces [.insert peerA, .tick [], .msg peerA .unchoke, .msg peerA (.have_ 1#32),
      .msg peerA (.bitfield [0xc0]), .msg peerA .choke, .msg peerA .keepAlive]
    (fun s es => ((view 2 peerA es).map (fun v => (v.choking, v.announced 0, v.announced 1)),
      (s.activePeers.get? peerA).map (fun i => (i.choking, i.haves.get 0, i.haves.get 1)))) =
    .ok (some (true, false, true), some (true, .ok false, .ok true)) := by decide +kernel

/-! ## C87 -/

theorem started_left {pieces : List ID} {s0 : TM} (h : Started pieces s0) :
    Inv pieces.length s0 ∧ s0.activePeers = [] ∧ s0.inactivePeers = [] := by
  refine ⟨(started_inv h).1, (started_inv h).2.1, ?_⟩
  obtain ⟨_, _, h⟩ := h
  simp only [TM.init] at h
  obtain ⟨b, _, h⟩ := Res.bind_eq_ok.mp h
  cases h
  rfl

theorem left_snoc (n : Nat) (peer : Peer) (es : List Event) (e : Event) :
    left n peer (es ++ [e]) = leaveStep peer (view n peer es) (left n peer es) e := by
  have hfst : ∀ (es : List Event) (a : Option PeerView × Option Status),
      (es.foldl (fun a e => (viewStep n peer a.1 e, leaveStep peer a.1 a.2 e)) a).1 = es.foldl (viewStep n peer) a.1 := by
    intro es
    induction es with
    | nil => intro a; rfl
    | cons e es ih => intro a; simp only [List.foldl_cons]; rw [ih]
  simp only [left, List.foldl_append, List.foldl_cons, List.foldl_nil, view]
  rw [hfst]

theorem tick_leaves {n : Nat} {p : Profile} {s s' : TM} {batch : List Peer}
    (hi : Inv n s) (hroom : s.inactivePeers ≠ [] → s.activePeers.length < 10)
    (h : s.beginTick p = .ok (s', batch)) :
    s'.inactivePeers = [] ∧ (s.inactivePeers ≠ [] → ∀ q, statusOf s'.peers q =
      if q ∈ batch then some .active else afterReports s.peers s.inactivePeers q) := by
  have hl := hi.len
  have hsub : usizeSub p 10 s.activePeers.length = .ok (10 - s.activePeers.length) := by
    simp only [usizeSub]; rw [if_pos hl]
  obtain ⟨s1, b, r1, r2, _⟩ := refresh_spec (p := p) hi
  have hw := r2.weight
  simp only [beginTick, r1, Res.ok_bind] at h
  have hsub9 : usizeSub p 9 s1.activePieces.weight = .ok (9 - s1.activePieces.weight) := by
    simp only [usizeSub]; rw [if_pos (by omega)]
  simp only [hsub9, Res.ok_bind] at h
  cases h
  show s1.inactivePeers = [] ∧ (s.inactivePeers ≠ [] → ∀ q, statusOf s1.peers q = _)
  simp only [refreshPeerList, hsub, Res.ok_bind] at r1
  by_cases hf : 10 - s.activePeers.length = 0
  · rw [if_pos hf] at r1
    cases r1
    have hnil : s.inactivePeers = [] := by
      cases hx : s.inactivePeers with
      | nil => rfl
      | cons a l => exact absurd (hroom (by rw [hx]; simp)) (by omega)
    exact ⟨hnil, fun h => absurd hnil h⟩
  · rw [if_neg hf] at r1
    obtain ⟨cands, b1, b2, b3, b4, b5⟩ := batch_eq hi.known s.inactivePeers (10 - s.activePeers.length)
    obtain ⟨s3, a1, a2⟩ := Res.bind_eq_ok.mp r1
    cases a2
    have hkeep : ∀ (ps : List Peer) (t t' : TM), addPeers ps t = .ok t' →
        t'.inactivePeers = t.inactivePeers ∧ t'.peers = t.peers := by
      intro ps
      induction ps with
      | nil => intro t t' h; cases h; exact ⟨rfl, rfl⟩
      | cons q ps ih =>
        intro t t' h
        simp only [addPeers] at h
        obtain ⟨info, _, h⟩ := Res.bind_eq_ok.mp h
        have h2 := ih _ _ h
        exact h2
    obtain ⟨k1, k2⟩ := hkeep _ _ _ a1
    refine ⟨k1, fun _ q => ?_⟩
    rw [k2, b5 q, b1]

/-- Since the last tick, the list of peers to report is what the history says. -/
theorem run_left {p : Profile} {s0 s : TM} {es : List Event} {n : Nat} (h : Run p s0 es s)
    (hi0 : Inv n s0) (ha : s0.activePeers = []) (hin : s0.inactivePeers = []) :
    (s.inactivePeers ≠ [] → s.activePeers.length < 10) ∧
    ∀ q, (s.inactivePeers.reverse.find? (fun e => e.1 = q)).map (·.2) = left n q es := by
  induction h with
  | nil => exact ⟨fun h => absurd hin h, fun q => by rw [hin]; rfl⟩
  | @snoc s1 s2 es e hr hs ih =>
    obtain ⟨i1, _, i3⟩ := run_inv hr hi0 ha
    obtain ⟨j1, j2⟩ := ih
    have hleft := fun q => left_snoc n q es e
    cases hs with
    | peers hq => exact ⟨j1, fun q => by rw [hleft]; exact j2 q⟩
    | @reorder m hp =>
      refine ⟨fun h => ?_, fun q => by rw [hleft]; exact j2 q⟩
      have := j1 h
      rw [hp.length_eq] at this; exact this
    | @tick _ batch _ ht =>
      obtain ⟨t1, _⟩ := tick_leaves i1 j1 ht
      exact ⟨fun h => absurd t1 h, fun q => by rw [hleft, t1]; rfl⟩
    | @start k peer idx hash sent s' acc hk hsel hst =>
      have e := (start_spec i1 hk hsel hst).2
      refine ⟨fun h => ?_, fun q => by rw [hleft, e.inactive]; exact j2 q⟩
      have h1 := j1 (by rw [← e.inactive]; exact h)
      have h2 := congrArg List.length e.keys
      simp only [Map.keys, List.length_map] at h2
      exact Nat.lt_of_le_of_lt (Nat.le_of_eq h2) h1
    | nothing => exact ⟨j1, fun q => by rw [hleft]; exact j2 q⟩
    | @msg peer m _ _ hm =>
      have hgone : ∀ st, s1.markPeerAsInactive p peer st = .ok s2 → (m = .unreachable ∧ st = .unableToConnect ∨
          m = .disconnected ∧ st = .unknown) → (s2.inactivePeers ≠ [] → s2.activePeers.length < 10) ∧
          ∀ q, (s2.inactivePeers.reverse.find? (fun e => e.1 = q)).map (·.2) = left n q (es ++ [.msg peer m]) := by
        intro st hst hms
        cases hg : s1.activePeers.get? peer with
        | none =>
          simp only [markPeerAsInactive, hg] at hst
          cases hst
          refine ⟨j1, fun q => ?_⟩
          rw [hleft, j2]
          simp only [leaveStep]
          rw [if_neg]
          rintro ⟨rfl, hv⟩
          rw [i3, hg] at hv
          cases hv
        | some info =>
          simp only [markPeerAsInactive, hg] at hst
          obtain ⟨bits, _, hst⟩ := Res.bind_eq_ok.mp hst
          obtain ⟨f, _, hst⟩ := Res.bind_eq_ok.mp hst
          cases hst
          constructor
          · intro _
            have hlen : (s1.activePeers.erase peer).length + 1 ≤ s1.activePeers.length := by
              have := Map.count_erase (f := fun _ => true) i1.wf hg
              simp only [Map.count, List.countP_true] at this
              simpa using Nat.le_of_eq this
            have := i1.len
            show (s1.activePeers.erase peer).length < 10
            omega
          · intro q
            rw [hleft]
            simp only [List.reverse_append, List.reverse_cons, List.reverse_nil, List.nil_append, List.singleton_append,
              List.find?_cons, leaveStep]
            by_cases hq : peer = q
            · subst hq
              have hv : (view n peer es).isSome = true := by rw [i3, hg]; rfl
              simp only [decide_true, Option.map_some, hv, and_self, if_true]
              rcases hms with ⟨rfl, rfl⟩ | ⟨rfl, rfl⟩ <;> rfl
            · simp only [hq, decide_false, false_and, if_false]
              exact j2 q
      have hstay : s2.inactivePeers = s1.inactivePeers → s2.activePeers.length = s1.activePeers.length →
          m ≠ .unreachable → m ≠ .disconnected → (s2.inactivePeers ≠ [] → s2.activePeers.length < 10) ∧
          ∀ q, (s2.inactivePeers.reverse.find? (fun e => e.1 = q)).map (·.2) = left n q (es ++ [.msg peer m]) := by
        intro h1 h2 h3 h4
        rw [h1, h2]
        refine ⟨j1, fun q => ?_⟩
        rw [hleft, j2]
        simp only [leaveStep]
        split
        · cases m <;> first | rfl | exact absurd rfl h3 | exact absurd rfl h4
        · rfl
      cases m with
      | unreachable => exact hgone _ hm (.inl ⟨rfl, rfl⟩)
      | disconnected => exact hgone _ hm (.inr ⟨rfl, rfl⟩)
      | keepAlive => cases hm; exact hstay rfl rfl (by simp) (by simp)
      | choke => cases hm; exact hstay rfl (by simp [Map.modify]) (by simp) (by simp)
      | unchoke => cases hm; exact hstay rfl (by simp [Map.modify]) (by simp) (by simp)
      | interested => cases hm; exact hstay rfl (by simp [Map.modify]) (by simp) (by simp)
      | notInterested => cases hm; exact hstay rfl (by simp [Map.modify]) (by simp) (by simp)
      | have_ i =>
        simp only [handleCommand, handleHave] at hm
        split at hm
        · cases hm; exact hstay rfl rfl (by simp) (by simp)
        · obtain ⟨⟨hb, old⟩, _, hm⟩ := Res.bind_eq_ok.mp hm
          cases old with
          | true => cases hm; exact hstay rfl (by simp [Map.modify]) (by simp) (by simp)
          | false =>
            obtain ⟨f, _, hm⟩ := Res.bind_eq_ok.mp hm
            obtain ⟨f', _, hm⟩ := Res.bind_eq_ok.mp hm
            cases hm; exact hstay rfl (by simp [Map.modify]) (by simp) (by simp)
      | bitfield b =>
        simp only [handleCommand, acceptBitfield] at hm
        split at hm
        · cases hm; exact hstay rfl rfl (by simp) (by simp)
        · split at hm
          · cases hm; exact hstay rfl rfl (by simp) (by simp)
          · split at hm
            · obtain ⟨bits, _, hm⟩ := Res.bind_eq_ok.mp hm
              obtain ⟨f, _, hm⟩ := Res.bind_eq_ok.mp hm
              cases hm; exact hstay rfl (by simp [Map.modify]) (by simp) (by simp)
            · cases hm; exact hstay rfl rfl (by simp) (by simp)
            · cases hm
      | request r => cases hm
      | finishedPiece i bs => cases hm
      | cancel r => cases hm

/-- C87: a peer that became unreachable or disconnected is, at the next tick, recorded as such in the table of
known peers (unreachable ones as unable to connect, disconnected ones as untried), unless that very tick chose
it for a new connection. -/
theorem C87_left_peers_reported (p : Profile) (pieces : List ID) (s0 s s' : TM) (es : List Event)
    (h0 : Started pieces s0) (h : Run p s0 es s) (batch : List Peer) (ht : Step p s (.tick batch) s') (peer : Peer) (st : Status)
    (hl : left pieces.length peer es = some st) :
    (peer ∉ batch → statusOf s'.peers peer = some st) ∧
    (peer ∈ batch → statusOf s'.peers peer = some .active) := by
  obtain ⟨hi0, ha, hin⟩ := started_left h0
  obtain ⟨i1, _, _⟩ := run_inv h hi0 ha
  obtain ⟨j1, j2⟩ := run_left h hi0 ha hin
  cases ht with
  | tick _ ht =>
    have hne : s.inactivePeers ≠ [] := by
      intro e
      have := j2 peer
      rw [e, hl] at this; cases this
    have := (tick_leaves i1 j1 ht).2 hne peer
    rw [this]
    refine ⟨fun hb => ?_, fun hb => by rw [if_pos hb]⟩
    rw [if_neg hb]
    have h2 := j2 peer
    rw [hl] at h2
    simp only [afterReports]
    cases hf : s.inactivePeers.reverse.find? (fun e => e.1 = peer) with
    | none => rw [hf] at h2; cases h2
    | some e => rw [hf] at h2; simpa using h2

/-- Peer A disconnects while nine others (here: none) are connected; peer B was unreachable. Both left since the
last tick; the next tick connects to both again, because there is room. With ten slots taken by better peers the
reported status stays. -/
example : ∃ (s0 s : TM) (es : List Event), Started twoPieces s0 ∧ Run .debug s0 es s ∧
    left 2 peerA es = some .unknown ∧ left 2 peerB es = some .unableToConnect := by
  obtain ⟨s0, s, es, h1, h2, h3⟩ := run_of_demo (p := .debug) (pieces := twoPieces)
    (is := [.insert peerA, .insert peerB, .tick [], .msg peerA .disconnected, .msg peerB .unreachable])
    (f := fun _ es => (left 2 peerA es, left 2 peerB es)) (a := (some .unknown, some .unableToConnect))
    (by decide) (by decide +kernel)
  simp only [Prod.mk.injEq] at h3
  exact ⟨s0, s, es, h1, h2, h3.1, h3.2⟩

end Nargun
