import Verif.Props.ProgramEnd
import Verif.Props.Storage
import Verif.Props.Metainfo
import Verif.Spec.Launch
import Verif.Props.ProgramTargets

/-! # The start of the program, and its sessions: C130, C131, C132 -/

namespace Nargun

open Dht Krpc Spec DhtManager

/-! ## The own id, and a DHT without a socket -/

theorem kind_own {pause : Nat → Nat} {m m' : Manager} {e : DhtManager.Entry} (hr : Reachable m.table)
    (hs : DhtManager.Step pause m e m') :
    m'.table.ownId = m.table.ownId ∧ ((∀ r, e.event ≠ .resp r) → m'.table = m.table) := by
  cases hs.kind hr with
  | @turn ev m1 o1 w o2 hrun hm hl =>
    have := hm.spec.2.2.2.2.2.2
    split at this
    · exact ⟨by show m1.table.ownId = _; rw [this], fun _ => this⟩
    · next id a hsi =>
      obtain ⟨t', h1, h2⟩ := C64_sighting_total m.table hr m.now id a
      rw [h1] at this
      refine ⟨by show m1.table.ownId = _; rw [← Res.ok.inj this]; exact h2, fun hno => ?_⟩
      cases ev with
      | resp r => exact absurd rfl (hno r)
      | _ => cases hsi
  | shutdown => exact ⟨rfl, fun _ => rfl⟩
  | gone => exact ⟨rfl, fun _ => rfl⟩
  | others => exact ⟨rfl, fun _ => rfl⟩
  | pass => exact ⟨rfl, fun _ => rfl⟩
  | reorder => exact ⟨rfl, fun _ => rfl⟩

/-- Every step of the DHT is one of the table task, or leaves the table task as it is. -/
theorem dhtStep_man {env : Env} {pause : Nat → Nat} {a b : DhtSystem.State} {x : DhtSystem.Entry}
    (hs : DhtSystem.Step env pause a x b) : b.man = a.man ∨ ∃ e, x.man = some e ∧ DhtManager.Step pause a.man e b.man := by
  cases hs with
  | direct h1 h2 h3 => exact .inr ⟨_, rfl, h3⟩
  | takeQuery h1 h2 h3 => exact .inr ⟨_, rfl, h3⟩
  | takeAnswer h1 h2 h3 => exact .inr ⟨_, rfl, h3⟩
  | conGone h1 h2 h3 h4 => exact .inr ⟨_, rfl, h4⟩
  | outside h1 h2 => exact .inr ⟨_, rfl, h2⟩
  | putFails h1 h2 h3 => exact .inr ⟨_, rfl, h3⟩
  | _ => exact .inl rfl

theorem dhtRun_own {env : Env} {pause : Nat → Nat} {a b : DhtSystem.State} {h : List DhtSystem.Entry} {infoHash : ID}
    (hb : Base infoHash a.man) (hr : DhtSystem.Run env pause a h b) :
    Base infoHash b.man ∧ b.man.table.ownId = a.man.table.ownId := by
  induction hr with
  | nil => exact ⟨hb, rfl⟩
  | snoc _ hs ih =>
    obtain ⟨i1, i2⟩ := ih
    rcases dhtStep_man hs with h | ⟨e, _, h⟩
    · rw [h]; exact ⟨i1, i2⟩
    · exact ⟨i1.step h, (kind_own i1.reach h).1.trans i2⟩

/-- The socket task is gone, and nothing came from it. -/
structure Deaf (s : DhtSystem.State) : Prop where
  con : s.conAlive = false
  queries : s.queries = []
  answers : ∀ c, s.answers c = []

theorem deaf_step {env : Env} {pause : Nat → Nat} {a b : DhtSystem.State} {x : DhtSystem.Entry} (hd : Deaf a)
    (hr : Reachable a.man.table) (hs : DhtSystem.Step env pause a x b) :
    Deaf b ∧ b.man.table = a.man.table ∧ x.sent = none := by
  have no : a.conAlive = true → False := fun h => by rw [hd.con] at h; cases h
  cases hs with
  | reorder h => exact ⟨⟨hd.con, hd.queries, hd.answers⟩, rfl, rfl⟩
  | direct h1 h2 h3 =>
    refine ⟨⟨hd.con, hd.queries, hd.answers⟩, (kind_own hr h3).2 ?_, rfl⟩
    rintro r rfl
    exact absurd h2 id
  | takeQuery h1 h2 h3 => rw [hd.queries] at h2; cases h2
  | takeAnswer h1 h2 h3 => rw [hd.answers] at h2; cases h2
  | conGone h1 h2 h3 h4 => exact ⟨⟨hd.con, hd.queries, hd.answers⟩, (kind_own hr h4).2 (by simp), rfl⟩
  | outside h1 h2 =>
    refine ⟨⟨hd.con, hd.queries, hd.answers⟩, (kind_own hr h2).2 ?_, rfl⟩
    rintro r rfl
    exact absurd h1 id
  | putFails h1 h2 h3 => exact ⟨⟨hd.con, hd.queries, hd.answers⟩, (kind_own hr h3).2 (by simp), rfl⟩
  | spawns => exact ⟨⟨hd.con, hd.queries, hd.answers⟩, rfl, rfl⟩
  | stores => exact ⟨⟨hd.con, hd.queries, hd.answers⟩, rfl, rfl⟩
  | hear h1 h2 => rw [hd.answers] at h2; cases h2
  | datagram h => exact (no h).elim
  | panics h => exact (no h).elim
  | command h => exact (no h).elim
  | sends h => exact (no h).elim
  | putQuery h => exact (no h).elim
  | putAnswer h => exact (no h).elim
  | noListener h => exact (no h).elim
  | putCommand _ _ h => exact (no h).elim
  | ask _ h => exact (no h).elim

theorem deaf_run {env : Env} {pause : Nat → Nat} {a b : DhtSystem.State} {h : List DhtSystem.Entry} {infoHash : ID}
    (hd : Deaf a) (hb : Base infoHash a.man) (hr : DhtSystem.Run env pause a h b) :
    Deaf b ∧ b.man.table = a.man.table ∧ sent h = [] := by
  induction hr with
  | nil => exact ⟨hd, rfl, rfl⟩
  | snoc hr hs ih =>
    obtain ⟨i1, i2, i3⟩ := ih
    obtain ⟨j1, j2, j3⟩ := deaf_step i1 (dhtRun_own hb hr).1.reach hs
    exact ⟨j1, j2.trans i2, by simp only [sent, List.filterMap_append] at i3 ⊢; rw [i3]; simp [j3]⟩

/-! ## The torrent side without its manager -/

/-- The manager is gone and never connected to anybody. -/
structure Deserted (s : Swarm.State) : Prop where
  man : s.man = .dead
  spawned : s.tm.connection.spawned = []
  dht : s.dht = []

theorem deserted_step {c : Swarm.Cfg} {a b : Swarm.State} {x : Swarm.Event} (hd : Deserted a) (hs : Swarm.Step c a x b) :
    Deserted b := by
  have noLoop : ∀ {p}, a.man = p → p ≠ .dead → False := fun h hp => hp (h.symm.trans hd.man)
  have noPeer : ∀ {q}, a.Spawned q → False := fun h => by
    simp only [Swarm.State.Spawned, hd.spawned] at h; cases h
  cases hs with
  | shared h =>
    cases h with
    | peers h => exact ⟨hd.man, hd.spawned, hd.dht⟩
  | reorder h => exact (noLoop h (by simp)).elim
  | tick h => exact (noLoop h (by simp)).elim
  | nothing h => exact (noLoop h (by simp)).elim
  | choose h => exact (noLoop h (by simp)).elim
  | refused h => exact (noLoop h (by simp)).elim
  | put h => exact (noLoop h (by simp)).elim
  | putFails h => exact (noLoop h (by simp)).elim
  | add h => exact (noLoop h (by simp)).elim
  | addPoisoned h => exact (noLoop h (by simp)).elim
  | addPanics h => exact (noLoop h (by simp)).elim
  | msg h => exact (noLoop h (by simp)).elim
  | msgPanics h => exact (noLoop h (by simp)).elim
  | tickPanics h => exact (noLoop h (by simp)).elim
  | choosePanics h => exact (noLoop h (by simp)).elim
  | dhtTakes h => rw [hd.dht] at h; cases h
  | dhtEnds => exact ⟨hd.man, hd.spawned, rfl⟩
  | pendReorder => exact ⟨hd.man, hd.spawned, hd.dht⟩
  | shakeOk h => exact (noPeer h).elim
  | shakeFails h => exact (noPeer h).elim
  | unreachable h => exact (noPeer h).elim
  | unreachableLost h => exact (noPeer h).elim
  | read h => exact (noPeer h).elim
  | readFails h => exact (noPeer h).elim
  | parsed h => exact (noPeer h).elim
  | parsedAll h => exact (noPeer h).elim
  | conDies h => exact (noPeer h).elim
  | handBlock h => exact (noPeer h).elim
  | handBlockLost h => exact (noPeer h).elim
  | handPort h => exact (noPeer h).elim
  | handPortLost h => exact (noPeer h).elim
  | handOther h => exact (noPeer h).elim
  | handOtherLost h => exact (noPeer h).elim
  | wrote h => exact (noPeer h).elim
  | conLeaves h => exact (noPeer h).elim
  | dlStart h => exact (noPeer h).elim
  | dlBlock h => exact (noPeer h).elim
  | dlReadd h => exact (noPeer h).elim
  | dlTake h => exact (noPeer h).elim
  | dlRequest h => exact (noPeer h).elim
  | dlRequestLost h => exact (noPeer h).elim
  | dlLoop h => exact (noPeer h).elim
  | reported h => exact (noPeer h).elim
  | reportedLost h => exact (noPeer h).elim
  | blockPoisoned h => exact (noPeer h).elim
  | blockPanics h => exact (noPeer h).elim
  | readdPoisoned h => exact (noPeer h).elim
  | takePoisoned h => exact (noPeer h).elim
  | takePanics h => exact (noPeer h).elim
  | noBlocks h => exact (noPeer h).elim
  | noCommands h => exact (noPeer h).elim

theorem deserted_run {c : Swarm.Cfg} {a b : Swarm.State} {es : List Swarm.Event} (hd : Deserted a) (hr : Swarm.Run c a es b) :
    Deserted b := by
  induction hr with
  | nil => exact hd
  | snoc _ hs ih => exact deserted_step ih hs

namespace Program

variable {sha1 : Bytes → ID} {utf8 : Bytes → Bool} {w : World} {m : Machine} {c : Chance} {u : Setup} {s s' s0 : State}
  {es : List Event} {t : Torrent}

/-! ## The start -/

/-- What the program is after a start that succeeds. -/
def launched (w : World) (m : Machine) (c : Chance) (t : Torrent) (table : RoutingTable) : State :=
  { peers := .new t.infoHash
    swarm := (startManager m.allowed c.order t.info (.new t.infoHash) m.tree).2
    dht := startDht (setupOf t table c) m.udpFree
    lookup := none
    trackers := t.httpTrackers.map (startTracker w (setupOf t table c))
    down := startDown t.httpTrackers.length }

theorem launch_eq {buf : Bytes} {table : RoutingTable} (hm : m.metainfo = some buf)
    (ht : Torrent.fromBuf sha1 utf8 buf = .ok t) (hg : m.gateway = true)
    (htab : TableFile.newTable c.nodeId m.tableFile = .ok table) :
    launch sha1 utf8 w m c =
      ((startManager m.allowed c.order t.info (.new t.infoHash) m.tree).1, .ok (launched w m c t table)) := by
  unfold launch readTorrent
  simp only [hm, ht, hg, htab, if_true]
  rfl

/-- What a start that succeeds went through. -/
theorem launch_ok {tree : Tree} (h : launch sha1 utf8 w m c = (tree, .ok s)) :
    ∃ buf t table, m.metainfo = some buf ∧ Torrent.fromBuf sha1 utf8 buf = .ok t ∧ m.gateway = true ∧
      TableFile.newTable c.nodeId m.tableFile = .ok table ∧ s = launched w m c t table ∧
      tree = (startManager m.allowed c.order t.info (.new t.infoHash) m.tree).1 := by
  cases hm : m.metainfo with
  | none => unfold launch readTorrent at h; simp only [hm] at h; cases h
  | some buf =>
    cases ht : Torrent.fromBuf sha1 utf8 buf with
    | err => unfold launch readTorrent at h; simp only [hm, ht] at h; cases h
    | panic => unfold launch readTorrent at h; simp only [hm, ht] at h; cases h
    | ok t =>
      cases hg : m.gateway with
      | false => unfold launch readTorrent at h; simp only [hm, ht, hg] at h; cases h
      | true =>
        cases htab : TableFile.newTable c.nodeId m.tableFile with
        | err => unfold launch readTorrent at h; simp only [hm, ht, hg, htab] at h; cases h
        | panic => unfold launch readTorrent at h; simp only [hm, ht, hg, htab] at h; cases h
        | ok table =>
          rw [launch_eq hm ht hg htab] at h
          cases h
          exact ⟨buf, t, table, rfl, ht, rfl, rfl, rfl, rfl⟩

theorem pending_ok {n : Nat} (h : 0 < n) : ∃ p, PendingPieces.new n = .ok p := by
  unfold PendingPieces.new unsignedCeilDiv usub
  rw [if_pos (by omega)]
  exact ⟨_, rfl⟩

theorem bitmap_ok {n : Nat} (h : 0 < n) : ∃ b, Bitmap.new n = .ok b := by
  unfold Bitmap.new unsignedCeilDiv usub
  rw [if_pos (by omega)]
  exact ⟨_, rfl⟩

theorem swarm_ok {pieces : List ID} {n : Nat} {peers : Peers} (hp : 0 < pieces.length) (hn : 0 < n) :
    ∃ s, Swarm.State.start pieces n peers = .ok s ∧ s.man = .loop := by
  obtain ⟨b, hb⟩ := bitmap_ok hp
  obtain ⟨p, hp⟩ := pending_ok hn
  unfold Swarm.State.start TM.init
  rw [hb, hp]
  exact ⟨_, rfl, rfl⟩

theorem storage_ok {info : Info} {allowed : Loc → Bool} {order : List Bytes} {tr : Tree} (ha : ∀ l, allowed l = true)
    (hn : PlainNames info) (hroom : RoomFor info tr)
    (ho : ∀ files, info.mode = .multi files → DirBuilder.SetOrder order (DirBuilder.inserted files)) :
    ∃ tr', FS.new allowed STORAGE info order tr = (tr', .ok ()) ∧ ∀ l, tr.contains l = true → tr'.contains l = true := by
  unfold FS.new
  cases hm : info.mode with
  | single n => exact ⟨tr, rfl, fun _ h => h⟩
  | multi files =>
    obtain ⟨b, hb, he⟩ := hroom files hm
    obtain ⟨tr', -, h1, h2, h3⟩ := C54_tree STORAGE info.name (hn files hm).1 files (fun f hf => ((hn files hm).2 f hf).2) b tr
      hb he allowed ha order (ho files hm)
    refine ⟨tr', h3, fun l hl => ?_⟩
    by_cases hc : l = b ++ [info.name] ∨ (∃ q, ProperAncestor files q ∧ l = b ++ info.name :: q)
    · rw [contains_iff, h1 l hc]; simp
    · rw [contains_iff] at hl ⊢
      rw [h2 l hc]
      exact hl

/-- C130, what holds: the metainfo file is accepted, the gateway opens a port, the UDP port is free, and the stored routing
table can be loaded. If the piece length is not zero, the size of the torrent fits 64 bits, and the torrent is a single
file or has plain names and its directory does not exist yet, then the program starts, and all its tasks are at work.
Missing: see the theorems below; a torrent with several files is not started a second time. -/
theorem C130_starts_partial (sha1 : Bytes → ID) (utf8 : Bytes → Bool) (w : World) (m : Machine) (c : Chance) (buf : Bytes)
    (t : Torrent) (table : RoutingTable) (hm : m.metainfo = some buf) (ht : Torrent.fromBuf sha1 utf8 buf = .ok t)
    (hg : m.gateway = true) (hudp : m.udpFree = true) (htab : TableFile.newTable c.nodeId m.tableFile = .ok table)
    (hlen : 0 < t.info.pieceLength) (hsize : t.info.pieces.length * t.info.pieceLength < 2 ^ 64)
    (hn : PlainNames t.info) (hroom : RoomFor t.info m.tree) (ha : ∀ l, m.allowed l = true)
    (ho : ∀ files, t.info.mode = .multi files → DirBuilder.SetOrder c.order (DirBuilder.inserted files)) :
    ∃ tree s, launch sha1 utf8 w m c = (tree, .ok s) ∧ Underway t s ∧ Started w (setupOf t table c) s ∧
      ∀ l, m.tree.contains l = true → tree.contains l = true := by
  have hp := (C61_shape_partial sha1 utf8 buf t ht).1
  obtain ⟨p, hpend⟩ := pending_ok hlen
  obtain ⟨tr', hfs, hkeep⟩ := storage_ok ha hn hroom ho
  obtain ⟨sw, hsw, hloop⟩ := swarm_ok (peers := .new t.infoHash) hp hlen
  have hman : startManager m.allowed c.order t.info (.new t.infoHash) m.tree = (tr', sw) := by
    unfold startManager
    simp only [hpend, hfs, hsw]
  have htr : ∀ url, ∃ x, TrackerTask.start url t.infoHash c.peerId t.info.pieces.length t.info.pieceLength 0 w.port = .ok x ∧
      x.announce.trackerUrl = url ∧ x.phase = .calling ∧ x.announce.infoHash = t.infoHash ∧
      x.announce.event = some .started := by
    intro url
    unfold TrackerTask.start leftBytes usub
    rw [if_pos (Nat.zero_le _)]
    simp only [Res.ok_bind, Nat.sub_zero, if_pos hsize]
    exact ⟨_, rfl, rfl, rfl, rfl, rfl⟩
  have hst : ∀ url, TrackerTask.start url t.infoHash c.peerId t.info.pieces.length t.info.pieceLength 0 w.port =
      .ok (startTracker w (setupOf t table c) url) := by
    intro url
    obtain ⟨x, hx, _⟩ := htr url
    unfold startTracker
    simp only [setupOf, hx]
  have hprop : ∀ url, (startTracker w (setupOf t table c) url).announce.trackerUrl = url ∧
      (startTracker w (setupOf t table c) url).phase = .calling ∧
      (startTracker w (setupOf t table c) url).announce.infoHash = t.infoHash ∧
      (startTracker w (setupOf t table c) url).announce.event = some .started := by
    intro url
    obtain ⟨x, hx, h1, h2, h3, h4⟩ := htr url
    rw [hst url] at hx
    rw [Res.ok.inj hx]
    exact ⟨h1, h2, h3, h4⟩
  refine ⟨tr', launched w m c t table, ?_, ⟨?_, hudp, rfl, ?_, ?_⟩, ⟨rfl, ?_, ?_, rfl, ?_, rfl⟩, hkeep⟩
  · rw [launch_eq hm ht hg htab, hman]
  · show (startManager m.allowed c.order t.info (.new t.infoHash) m.tree).2.man = .loop
    rw [hman]; exact hloop
  · simp only [launched, List.map_map]
    apply List.map_congr_left
    intro url _
    simp only [Function.comp_apply]
    rw [(hprop url).1, (hprop url).2.1]
  · intro x hx
    obtain ⟨url, _, rfl⟩ := List.mem_map.mp hx
    exact (hprop url).2.2
  · show _ = Res.ok (startManager m.allowed c.order t.info (.new t.infoHash) m.tree).2
    rw [hman]; exact hsw
  · show startDht (setupOf t table c) m.udpFree = _
    rw [hudp]; rfl
  · simp only [launched, List.map_map]
    apply List.map_congr_left
    intro url _
    exact hst url

/-! ## Starts at which the manager panics -/

theorem gone_deserted (pieces : List ID) (peers : Peers) : Deserted (managerGone pieces peers) := ⟨rfl, rfl, rfl⟩

theorem deserted_nothing (hd : Deserted s0.swarm) : DoesNothing w s0 := by
  intro es s hr
  obtain ⟨l, hl, hf⟩ := run_torrent hr
  have hd0 : Deserted s0.torrent := ⟨hd.man, hd.spawned, hd.dht⟩
  refine ⟨?_, fun h1 h2 h3 => ?_⟩
  · have := (Swarm.C115_dead_forever _ _ _ _ hd0.man hl).2.1
    rw [← hf]
    simp only [connectedTo, List.flatMap_eq_nil_iff] at this ⊢
    exact fun x hx => this x ((List.mem_filter.mp hx).1)
  · have hds := deserted_run hd0 hl
    have hclosed : s.NodesClosed := by
      refine ⟨hds.man, fun q hq => ?_, hds.dht⟩
      have : s.swarm.tm.connection.spawned = [] := hds.spawned
      simp only [Swarm.State.Spawned, this] at hq
      cases hq
    have st : DhtSystem.Step w.env w.refreshPause s.nodes { man := some ⟨.peersGone, []⟩ }
        { s.nodes with man := { s.nodes.man with status := .failed }, manTodo := [] } := .direct h3 trivial (.peersGone h2)
    refine ⟨_, ⟨h1, .nodesGone hclosed st⟩, fun es' s2 hr2 => ?_⟩
    obtain ⟨l2, rl, fl⟩ := run_dht hr2
    have := (failed_run (by rfl) rl).2
    rw [← fl]
    simp only [storedTables, List.filterMap_eq_nil_iff] at this ⊢
    exact fun x hx => this x ((List.mem_filter.mp hx).1)

/-- C130 fails for torrents with several files: the program was started once, and its manager came up. Whatever was done
since, as long as the torrent's directories are still there, the next start finds them, the manager panics, and the
program does nothing. -/
theorem C130_again_violated (sha1 : Bytes → ID) (utf8 : Bytes → Bool) (w w2 : World) (m m2 : Machine) (c c2 : Chance)
    (tree : Tree) (s s2 : State) (buf : Bytes) (t : Torrent) (files : List TorrentFile) (hm : m.metainfo = some buf)
    (ht : Torrent.fromBuf sha1 utf8 buf = .ok t) (hmode : t.info.mode = .multi files) (hname : NormalName t.info.name)
    (b : Loc) (hb : LeadsTo m.tree STORAGE b) (h1 : launch sha1 utf8 w m c = (tree, .ok s)) (hup : s.swarm.man = .loop)
    (hm2 : m2.metainfo = some buf) (hb2 : LeadsTo m2.tree STORAGE b)
    (hkept : ∀ l, tree.contains l = true → m2.tree.contains l = true) (tree2 : Tree)
    (h2 : launch sha1 utf8 w2 m2 c2 = (tree2, .ok s2)) :
    s2.swarm.man = .dead ∧ tree2 = m2.tree ∧ DoesNothing w2 s2 := by
  obtain ⟨buf', t', table, e1, e2, -, -, rfl, htree⟩ := launch_ok h1
  obtain rfl : buf = buf' := Option.some.inj (hm.symm.trans e1)
  obtain rfl : t = t' := Res.ok.inj (ht.symm.trans e2)
  obtain ⟨buf', t', table2, e1', e2', -, -, rfl, htree2⟩ := launch_ok h2
  obtain rfl : buf = buf' := Option.some.inj (hm2.symm.trans e1')
  obtain rfl : t = t' := Res.ok.inj (ht.symm.trans e2')
  -- the first start made the directory
  have hfs : ∃ p tr', PendingPieces.new t.info.pieceLength = .ok p ∧
      MultiFile.new m.allowed STORAGE t.info.name c.order m.tree = (tr', .ok ()) ∧ tree = tr' := by
    simp only [launched] at hup
    rw [htree]
    unfold startManager at hup ⊢
    cases hp : PendingPieces.new t.info.pieceLength with
    | err => simp only [hp] at hup; cases hup
    | panic => simp only [hp] at hup; cases hup
    | ok p =>
      simp only [hp, FS.new, hmode] at hup ⊢
      rcases hf : MultiFile.new m.allowed STORAGE t.info.name c.order m.tree with ⟨tr', r⟩
      simp only [hf] at hup ⊢
      cases r with
      | err => cases hup
      | panic => cases hup
      | ok _ =>
        refine ⟨p, tr', rfl, rfl, ?_⟩
        cases hsw : Swarm.State.start t.info.pieces t.info.pieceLength (.new t.infoHash) with
        | ok _ => rfl
        | err => simp only
        | panic => simp only
  obtain ⟨p, tr', hp, hf, rfl⟩ := hfs
  have hagain : MultiFile.new m2.allowed STORAGE t.info.name c2.order m2.tree = (m2.tree, .panic) := by
    unfold MultiFile.new DirBuilder.buildDirTree at hf
    split at hf
    · next tr1 heq =>
      cases hf
      have := C55_crash_violated STORAGE t.info.name hname b m.tree tree m2.tree hb m.allowed
        (DirBuilder.dirsByAscDepth (DirBuilder.workingDir STORAGE t.info.name) c.order)
        (DirBuilder.dirsByAscDepth (DirBuilder.workingDir STORAGE t.info.name) c.order).length
        (by rw [List.take_length]; exact heq) hb2 hkept m2.allowed c2.order
      exact this
    · cases (Prod.mk.inj hf).2
  have hman : startManager m2.allowed c2.order t.info (.new t.infoHash) m2.tree =
      (m2.tree, managerGone t.info.pieces (.new t.infoHash)) := by
    unfold startManager
    simp only [hp, FS.new, hmode, hagain]
  have hd : Deserted (launched w2 m2 c2 t table2).swarm := by
    show Deserted (startManager m2.allowed c2.order t.info (.new t.infoHash) m2.tree).2
    rw [hman]; exact gone_deserted _ _
  exact ⟨hd.man, by rw [htree2, hman], deserted_nothing hd⟩

/-- C130, a start whose directories could not all be made does not spoil the next one: if all names are plain and there was
room for the torrent, but the manager did not come up, then on the disk everything is as it was before, and there still is room,
so that `C130_starts_partial` applies to the next start. -/
theorem C130_retry_partial (sha1 : Bytes → ID) (utf8 : Bytes → Bool) (w : World) (m : Machine) (c : Chance) (tree : Tree)
    (s : State) (buf : Bytes) (t : Torrent) (hm : m.metainfo = some buf) (ht : Torrent.fromBuf sha1 utf8 buf = .ok t)
    (hlen : 0 < t.info.pieceLength) (hn : PlainNames t.info) (hroom : RoomFor t.info m.tree)
    (ho : ∀ files, t.info.mode = .multi files → DirBuilder.SetOrder c.order (DirBuilder.inserted files))
    (h : launch sha1 utf8 w m c = (tree, .ok s)) (hdead : s.swarm.man ≠ .loop) :
    (∀ l, tree.get? l = m.tree.get? l) ∧ RoomFor t.info tree := by
  obtain ⟨buf', t', table, e1, e2, -, -, rfl, htree⟩ := launch_ok h
  obtain rfl : buf = buf' := Option.some.inj (hm.symm.trans e1)
  obtain rfl : t = t' := Res.ok.inj (ht.symm.trans e2)
  have hp := (C61_shape_partial sha1 utf8 buf t ht).1
  obtain ⟨p, hpend⟩ := pending_ok hlen
  obtain ⟨sw, hsw, hloop⟩ := swarm_ok (peers := .new t.infoHash) hp hlen
  simp only [launched] at hdead
  have same : ∀ l, tree.get? l = m.tree.get? l := by
    rw [htree]
    unfold startManager at hdead ⊢
    simp only [hpend, FS.new] at hdead ⊢
    cases hmode : t.info.mode with
    | single n =>
      simp only [hmode, hsw] at hdead ⊢
      exact absurd hloop hdead
    | multi files =>
      simp only [hmode] at hdead ⊢
      obtain ⟨b, hb, he⟩ := hroom files hmode
      rcases hf : DirBuilder.buildDirTree m.allowed STORAGE t.info.name c.order m.tree with ⟨tr', r⟩
      cases r with
      | ok _ =>
        have hmf : MultiFile.new m.allowed STORAGE t.info.name c.order m.tree = (tr', .ok ()) := by
          unfold MultiFile.new; rw [hf]
        simp only [hmf, hsw] at hdead
        exact absurd hloop hdead
      | err =>
        have hmf : MultiFile.new m.allowed STORAGE t.info.name c.order m.tree = (tr', .panic) := by
          unfold MultiFile.new; rw [hf]
        simp only [hmf]
        exact C54_failure_cleans STORAGE t.info.name (hn files hmode).1 files (fun f hf => ((hn files hmode).2 f hf).2) b m.tree hb he
          m.allowed c.order (ho files hmode) tr' _ hf (by simp)
      | panic =>
        have hmf : MultiFile.new m.allowed STORAGE t.info.name c.order m.tree = (tr', .panic) := by
          unfold MultiFile.new; rw [hf]
        simp only [hmf]
        exact C54_failure_cleans STORAGE t.info.name (hn files hmode).1 files (fun f hf => ((hn files hmode).2 f hf).2) b m.tree hb he
          m.allowed c.order (ho files hmode) tr' _ hf (by simp)
  refine ⟨same, fun files hmode => ?_⟩
  obtain ⟨b, hb, he⟩ := hroom files hmode
  refine ⟨b, ?_, fun q => (same _).trans (he q)⟩
  exact walk_mono (fun l hl => (same l).trans hl) [] _ b hb

/-- C130 fails for an accepted torrent with a piece length of zero (C61): the manager panics, and the program does nothing. -/
theorem C130_zero_violated (sha1 : Bytes → ID) (utf8 : Bytes → Bool) (w : World) (m : Machine) (c : Chance) (tree : Tree)
    (s : State) (buf : Bytes) (t : Torrent) (hm : m.metainfo = some buf) (ht : Torrent.fromBuf sha1 utf8 buf = .ok t)
    (hz : t.info.pieceLength = 0) (h : launch sha1 utf8 w m c = (tree, .ok s)) :
    s.swarm.man = .dead ∧ tree = m.tree ∧ DoesNothing w s := by
  obtain ⟨buf', t', table, e1, e2, -, -, rfl, htree⟩ := launch_ok h
  obtain rfl : buf = buf' := Option.some.inj (hm.symm.trans e1)
  obtain rfl : t = t' := Res.ok.inj (ht.symm.trans e2)
  have hman : startManager m.allowed c.order t.info (.new t.infoHash) m.tree =
      (m.tree, managerGone t.info.pieces (.new t.infoHash)) := by
    unfold startManager
    rw [hz]
    rfl
  have hd : Deserted (launched w m c t table).swarm := by
    show Deserted (startManager m.allowed c.order t.info (.new t.infoHash) m.tree).2
    rw [hman]; exact gone_deserted _ _
  exact ⟨hd.man, by rw [htree, hman], deserted_nothing hd⟩

theorem idle_trackers (h0 : ∀ x ∈ s0.trackers, x.phase = .exited ∧ x.log = [.loaded 0]) (hr : Run w s0 es s) :
    (∀ x ∈ s.trackers, x.phase = .exited ∧ x.log = [.loaded 0]) ∧ ∀ i r, .answered i r ∉ es := by
  induction hr with
  | nil => exact ⟨h0, by simp⟩
  | @snoc s1 s2 es e hr hs ih =>
    obtain ⟨i1, i2⟩ := ih
    have same : ∀ {i : Nat} {x x' : TrackerTask} {inp : TrackerInput}, s1.trackers[i]? = some x → x.step inp = .ok x' →
        ∀ y ∈ s1.trackers.set i x', y.phase = .exited ∧ y.log = [.loaded 0] := by
      intro i x x' inp hx hst y hy
      have hxm := i1 x (List.mem_of_getElem? hx)
      rw [exited_step hxm.1] at hst
      cases hst
      rcases List.mem_or_eq_of_mem_set hy with hy | rfl
      · exact i1 y hy
      · exact hxm
    have key : (∀ x ∈ s2.trackers, x.phase = .exited ∧ x.log = [.loaded 0]) ∧ ∀ i r, e ≠ .answered i r := by
      cases hs.2 with
      | answered h1 h2 h3 => rw [(i1 _ (List.mem_of_getElem? h1)).1] at h2; cases h2
      | tracker h1 h2 h3 => exact ⟨same h1 h3, by simp⟩
      | trackerNotices h1 h2 h3 h4 => exact ⟨same h1 h4, by simp⟩
      | _ => exact ⟨i1, by simp⟩
    refine ⟨key.1, fun i r hm => ?_⟩
    rcases List.mem_append.mp hm with h | h
    · exact i2 i r h
    · exact key.2 i r (List.mem_singleton.mp h).symm

/-- C130 fails for an accepted torrent whose size does not fit 64 bits: the task of every tracker panics at its start, and no
tracker is ever asked for peers. -/
theorem C130_huge_violated (sha1 : Bytes → ID) (utf8 : Bytes → Bool) (w : World) (m : Machine) (c : Chance) (tree : Tree)
    (s0 s : State) (es : List Event) (buf : Bytes) (t : Torrent) (hm : m.metainfo = some buf)
    (ht : Torrent.fromBuf sha1 utf8 buf = .ok t) (hz : 2 ^ 64 ≤ t.info.pieces.length * t.info.pieceLength)
    (h : launch sha1 utf8 w m c = (tree, .ok s0)) (hr : Run w s0 es s) :
    (∀ x ∈ s.trackers, ∀ a, .sent a ∉ x.log) ∧ ∀ i r, .answered i r ∉ es := by
  obtain ⟨buf', t', table, e1, e2, -, -, rfl, htree⟩ := launch_ok h
  obtain rfl : buf = buf' := Option.some.inj (hm.symm.trans e1)
  obtain rfl : t = t' := Res.ok.inj (ht.symm.trans e2)
  have h0 : ∀ x ∈ (launched w m c t table).trackers, x.phase = .exited ∧ x.log = [.loaded 0] := by
    intro x hx
    obtain ⟨url, _, rfl⟩ := List.mem_map.mp hx
    have hp : TrackerTask.start url t.infoHash c.peerId t.info.pieces.length t.info.pieceLength 0 w.port = .panic := by
      unfold TrackerTask.start leftBytes usub
      rw [if_pos (Nat.zero_le _)]
      simp only [Res.ok_bind, Nat.sub_zero]
      rw [if_neg (Nat.not_lt.mpr hz)]
      rfl
    unfold startTracker
    simp only [setupOf, hp]
    exact ⟨trivial, trivial⟩
  obtain ⟨h1, h2⟩ := idle_trackers h0 hr
  exact ⟨fun x hx a ha => by rw [(h1 x hx).2] at ha; simp at ha, h2⟩

theorem launched_nodes (table : RoutingTable) : (launched w m c t table).nodes = startDht (setupOf t table c) m.udpFree := rfl

theorem launched_base {table : RoutingTable} (ht : Reachable table) :
    Base t.infoHash (launched w m c t table).nodes.man := Base.start ht .nil

/-- C130 fails beside another program that uses the UDP port 46493, for instance another download with this program: the
socket task panics, and no datagram is ever sent. -/
theorem C130_port_violated (sha1 : Bytes → ID) (utf8 : Bytes → Bool) (w : World) (m : Machine) (c : Chance) (tree : Tree)
    (s0 s : State) (es : List Event) (hudp : m.udpFree = false)
    (htab : ∀ id table, TableFile.newTable id m.tableFile = .ok table → Reachable table)
    (h : launch sha1 utf8 w m c = (tree, .ok s0)) (hr : Run w s0 es s) : sent (dhtEvents es) = [] := by
  obtain ⟨buf, t, table, e1, e2, -, e3, rfl, htree⟩ := launch_ok h
  obtain ⟨l, hl, hf⟩ := run_dht hr
  have := (deaf_run (a := (launched w m c t table).nodes) ⟨by rw [launched_nodes, hudp]; rfl, rfl, fun _ => rfl⟩
    (launched_base (htab _ _ e3)) hl).2.2
  rw [← hf]
  simp only [sent, List.filterMap_eq_nil_iff] at this ⊢
  exact fun x hx => this x ((List.mem_filter.mp hx).1)

/-! ## Sessions -/

theorem stored_run (h0 : StoredInv s0.dht []) (hr : Run w s0 es s) : StoredInv s.dht (storedTables (dhtEvents es)) := by
  induction hr with
  | nil => exact h0
  | @snoc s1 s2 es e hr hs ih =>
    rcases turn_dhtStep hs.2 with ⟨h1, h2⟩ | ⟨x, h1, h2, -, -⟩
    · rw [h2, dhtEvents_snoc, h1, List.append_nil]; exact ih
    · have := stored_step (tables := storedTables (dhtEvents es)) (show StoredInv s1.nodes _ from ih) h2
      rw [dhtEvents_snoc, h1]
      simp only [storedTables, List.filterMap_append] at this ⊢
      cases hx : x.stored with
      | none => simp only [hx, Option.toList, List.append_nil, List.filterMap_cons, List.filterMap_nil] at this ⊢; exact this
      | some t => simp only [hx, Option.toList, List.filterMap_cons, List.filterMap_nil] at this ⊢; exact this

/-- The routing table during a session. -/
theorem session_table {table : RoutingTable} (ht : Reachable table) (hr : Run w (launched w m c t table) es s) :
    Reachable s.dht.man.table ∧ s.dht.man.table.ownId = table.ownId ∧
    ∀ n ∈ s.dht.man.table.iterNodes, (∃ n0 ∈ table.iterNodes, n0.id = n.id ∧ n0.addr = n.addr) ∨
      AnsweredUs table.ownId (dhtEvents es) n.id n.addr := by
  obtain ⟨l, hl, hf⟩ := run_dht hr
  obtain ⟨h1, h2⟩ := dhtRun_own (launched_base ht) hl
  refine ⟨h1.reach, h2, fun n hn => ?_⟩
  cases hu : m.udpFree with
  | false =>
    have := (deaf_run (a := (launched w m c t table).nodes) ⟨by rw [launched_nodes, hu]; rfl, rfl, fun _ => rfl⟩
      (launched_base ht) hl).2.1
    have hn' : n ∈ (launched w m c t table).nodes.man.table.iterNodes := by rw [← this]; exact hn
    exact .inl ⟨n, hn', rfl, rfl⟩
  | true =>
    rw [launched_nodes, hu] at hl
    rcases C103_table ht .nil hl n hn with h | h
    · exact .inl h
    · exact .inr (answeredUs_down hl hf h)

/-- What a session may leave behind. -/
theorem leaves_cases {table : RoutingTable} {file file' : Option Bytes} (ht : Reachable table)
    (hr : Run w (launched w m c t table) es s) (hl : Leaves file es s file') :
    file' = file ∨ ∀ fresh, TableFile.newTable fresh file' = .ok (tableForgetSeen s.dht.man.table) ∨
      TableFile.newTable fresh file' = .ok (RoutingTable.default fresh) := by
  have hst := stored_run (s0 := launched w m c t table) rfl hr
  have hreach := (session_table ht hr).1
  unfold StoredInv at hst
  cases hl with
  | kept =>
    split at hst
    · rcases hst with ⟨_, h⟩ | ⟨_, h⟩
      · rw [h]; exact .inl rfl
      · rw [h]; exact .inr fun fresh => .inl (C70_restored _ hreach fresh).1
    · rw [hst]; exact .inl rfl
  | @within tab rest _ h1 h2 h3 =>
    rw [h1] at hst
    rcases hst with ⟨h4, h5⟩ | ⟨h4, _⟩
    · rw [h2] at h4
      cases h4
      rw [h5] at h3
      rcases h3 with h3 | ⟨k, hk, h3⟩
      · exact .inl h3
      · by_cases he : file' = file
        · exact .inl he
        · refine .inr fun fresh => ?_
          rcases C70_crash _ hreach file file' (.inr ⟨k, hk, h3⟩) fresh with h | h | h
          · exact absurd h he
          · exact .inl h
          · exact .inr h
    · rw [h2] at h4; cases h4

/-- C131: however often the program has been run on a machine, with whatever torrents, peers and nodes, and however its
processes ended, also in the middle of storing the routing table: the next start finds a routing table that it can load,
and it is as sound as one built from scratch; all its nodes have answered this program, under the id it still has, in one
of the earlier sessions. -/
theorem C131_sessions (sha1 : Bytes → ID) (utf8 : Bytes → Bool) (hist : List (List Event)) (file : Option Bytes)
    (h : Sessions sha1 utf8 hist file) (nodeId : ID) :
    ∃ table, TableFile.newTable nodeId file = .ok table ∧ Reachable table ∧
      ∀ n ∈ table.iterNodes, ∃ es ∈ hist, AnsweredUs table.ownId (dhtEvents es) n.id n.addr := by
  have empty : ∀ {hist : List (List Event)} (id : ID), ∀ n ∈ (RoutingTable.default id).iterNodes,
      ∃ es ∈ hist, AnsweredUs (RoutingTable.default id).ownId (dhtEvents es) n.id n.addr := by
    intro hist id n hn
    have : (RoutingTable.default id).iterNodes = [] := rfl
    rw [this] at hn
    cases hn
  induction h generalizing nodeId with
  | new => exact ⟨_, rfl, .fresh nodeId, empty _⟩
  | @session hist file w m c tree s0 es s file' hs hfile hl hr hleave ih =>
    obtain ⟨buf, t, table, e1, e2, -, e3, rfl, -⟩ := launch_ok hl
    rw [hfile] at e3
    obtain ⟨table', e3', hreach, hans⟩ := ih c.nodeId
    obtain rfl : table = table' := Res.ok.inj (e3.symm.trans e3')
    rcases leaves_cases hreach hr hleave with rfl | hc
    · obtain ⟨tab, f1, f2, f3⟩ := ih nodeId
      refine ⟨tab, f1, f2, fun n hn => ?_⟩
      obtain ⟨es', h1, h2⟩ := f3 n hn
      exact ⟨es', List.mem_append_left _ h1, h2⟩
    · rcases hc nodeId with hc | hc
      · obtain ⟨g1, g2, g3⟩ := session_table hreach hr
        refine ⟨_, hc, .restart _ _ nodeId g1 (C70_restored _ g1 nodeId).1, fun n hn => ?_⟩
        rw [RoutingTable.forgetSeen_iterNodes] at hn
        obtain ⟨n', hn', rfl⟩ := List.mem_map.mp hn
        show ∃ es' ∈ hist ++ [es], AnsweredUs s.dht.man.table.ownId (dhtEvents es') n'.id n'.addr
        rw [g2]
        rcases g3 n' hn' with ⟨n0, h0, h1, h2⟩ | h
        · obtain ⟨es', k1, k2⟩ := hans n0 h0
          exact ⟨es', List.mem_append_left _ k1, by rw [← h1, ← h2]; exact k2⟩
        · exact ⟨es, by simp, h⟩
      · exact ⟨_, hc, .fresh nodeId, empty _⟩

/-- C132, what holds: a session in which no peer made the manager panic and no datagram the socket task, and that ended by
Ctrl-C, leaves its own id and all nodes it knew to the next. Missing: see the theorems below. -/
theorem C132_next_partial (sha1 : Bytes → ID) (utf8 : Bytes → Bool) (hist : List (List Event)) (file file' : Option Bytes)
    (h : Sessions sha1 utf8 hist file) (w : World) (m : Machine) (c : Chance) (tree : Tree) (u : Setup) (s0 s : State)
    (es : List Event) (hfile : m.tableFile = file) (hl : launch sha1 utf8 w m c = (tree, .ok s0)) (h0 : Started w u s0)
    (hr : Run w s0 es s) (hx : .exits ∈ es) (hfatal : ¬ FatalDatagram es) (hman : .torrent .manDies ∉ es)
    (hleave : Leaves file es s file') (nodeId : ID) :
    ∃ table, TableFile.newTable nodeId file' = .ok table ∧ table.ownId = s.dht.man.table.ownId ∧
      table.iterNodes.map (fun n => (n.id, n.addr)) = s.dht.man.table.iterNodes.map (fun n => (n.id, n.addr)) := by
  obtain ⟨buf, t, table, e1, e2, -, e3, rfl, -⟩ := launch_ok hl
  rw [hfile] at e3
  obtain ⟨table', e3', hreach, -⟩ := C131_sessions sha1 utf8 hist file h c.nodeId
  obtain rfl : table = table' := Res.ok.inj (e3.symm.trans e3')
  have hst : storedTables (dhtEvents es) = [s.dht.man.table] := by
    rcases (C119_exit_partial w u _ s es h0 hr hx).2.2 with ⟨_, h⟩ | ⟨_, h | h⟩
    · exact h
    · exact absurd h hfatal
    · exact absurd h hman
  have hinv := stored_run (s0 := launched w m c t table) rfl hr
  have hg := (session_table hreach hr).1
  have hf : file' = TableFile.afterStore s.dht.man.table := by
    cases hleave with
    | kept => rw [hst]; rfl
    | within h1 h2 h3 =>
      unfold StoredInv at hinv
      rw [h1] at hinv
      rcases hinv with ⟨_, h⟩ | ⟨h, _⟩
      · rw [hst] at h; cases h
      · rw [h2] at h; cases h
  rw [hf]
  refine ⟨_, (C70_restored _ hg nodeId).1, rfl, ?_⟩
  rw [RoutingTable.forgetSeen_iterNodes, List.map_map]
  rfl

/-- C132 fails when the process ends while the table is being stored: all nodes, those of earlier sessions as well, and the own
id can be lost. -/
theorem C132_crash_violated (file : Option Bytes) (w : World) (s0 s : State) (es : List Event) (_ : Run w s0 es s)
    (hfin : s.dht.man.status = .finished) (t : RoutingTable) (rest : List Out) (htodo : s.dht.manTodo = .stored t :: rest) :
    ∃ file', Leaves file es s file' ∧ ∀ id, TableFile.newTable id file' = .ok (RoutingTable.default id) :=
  ⟨some [], .within hfin htodo (.inr ⟨0, Nat.zero_le _, rfl⟩), fun _ => rfl⟩

theorem finished_noticed (h0 : s0.dht.man.status = .running) (hr : Run w s0 es s)
    (hf : s.dht.man.status = .finished) : ∃ outs, .tableNotices outs ∈ es := by
  induction hr with
  | nil => rw [h0] at hf; cases hf
  | @snoc s1 s2 es e hr hs ih =>
    rcases turn_dhtStep hs.2 with ⟨h1, h2⟩ | ⟨x, h1, h2, -, h4⟩
    · rw [h2] at hf
      exact (ih hf).imp fun _ => List.mem_append_left _
    · rcases (dht_ends h2).2.2.2.1 hf with h | ⟨outs, h⟩
      · exact (ih h).imp fun _ => List.mem_append_left _
      · exact ⟨outs, by rw [h4 outs h]; simp⟩

/-- C132 fails when the process ends in any other way than by Ctrl-C: nothing that the session has learnt is there in the
next. The table is not stored before the table task has noticed the signal. -/
theorem C132_killed_violated (sha1 : Bytes → ID) (utf8 : Bytes → Bool) (w : World) (m : Machine) (c : Chance) (tree : Tree)
    (s0 s : State) (es : List Event) (hl : launch sha1 utf8 w m c = (tree, .ok s0)) (hr : Run w s0 es s)
    (hno : ∀ outs, .tableNotices outs ∉ es) (file' : Option Bytes) (hleave : Leaves m.tableFile es s file') :
    file' = m.tableFile := by
  obtain ⟨buf, t, table, e1, e2, -, e3, rfl, -⟩ := launch_ok hl
  have hinv := stored_run (s0 := launched w m c t table) rfl hr
  have hnf : s.dht.man.status ≠ .finished := fun h => (finished_noticed rfl hr h).elim hno
  cases hleave with
  | kept =>
    unfold StoredInv at hinv
    split at hinv
    · next h => exact absurd h hnf
    · rw [hinv]; rfl
  | within h => exact absurd h hnf

/-! ## The statements are not about nothing -/

/-- Start the program and make these steps; what `f` says about the file system, what happened and the state afterwards. -/
def session {α : Type} (w : World) (m : Machine) (c : Chance) (as : List Act) (f : Tree → List Event → State → α) :
    Option α :=
  match launch demoSha1 (fun _ => true) w m c with
  | (tree, .ok s0) => (acts w s0 as).map fun r => f tree r.1 r.2
  | _ => none

theorem session_sound {α : Type} {m : Machine} {c : Chance} {as : List Act} {f : Tree → List Event → State → α} {a : α}
    (h : session w m c as f = some a) :
    ∃ tree s0 es s, launch demoSha1 (fun _ => true) w m c = (tree, .ok s0) ∧ Run w s0 es s ∧ f tree es s = a := by
  unfold session at h
  split at h
  · next tree s0 hl =>
    obtain ⟨⟨es, s⟩, h1, h2⟩ := Option.map_eq_some_iff.mp h
    exact ⟨tree, s0, es, s, hl, acts_run h1, h2⟩
  · cases h

/-- A torrent with the files `x/d/f` and `x/g`. -/
def demoMulti : Bytes := ascii ("d8:announce8:http://b4:infod5:filesld6:lengthi3e4:pathl1:d1:feed6:lengthi2e4:pathl1:geee" ++
  "4:name1:x12:piece lengthi4e6:pieces40:aaaaaaaaaaaaaaaaaaaabbbbbbbbbbbbbbbbbbbbee")

/-- The directories down to the one for torrents. -/
def demoHome : Tree := [([ascii "home"], .dir), ([ascii "home", ascii "gvelesa"], .dir),
  ([ascii "home", ascii "gvelesa", ascii "rust"], .dir),
  ([ascii "home", ascii "gvelesa", ascii "rust", ascii "narpath"], .dir)]

/-- Where torrents are stored. -/
def demoBase : Loc := [ascii "home", ascii "gvelesa", ascii "rust", ascii "narpath"]

def demoMachine (metainfo : Bytes) (tableFile : Option Bytes) (tree : Tree) (udpFree : Bool) : Machine :=
  ⟨some metainfo, tableFile, tree, fun _ => true, true, udpFree⟩

def demoChance (nodeId : Byte) : Chance := ⟨exId 1#8, exId nodeId, exId 2#8, [ascii "d/"], 0⟩

/-- What is in the torrent. -/
theorem demoMulti_ok : ∃ t, Torrent.fromBuf demoSha1 (fun _ => true) demoMulti = .ok t ∧
    t.info.mode = .multi [⟨[ascii "d", ascii "f"], 3⟩, ⟨[ascii "g"], 2⟩] ∧ t.info.name = ascii "x" ∧
    t.info.pieceLength = 4 ∧ t.info.pieces.length = 2 ∧ t.httpTrackers = [ascii "http://b"] := by
  have h : (match Torrent.fromBuf demoSha1 (fun _ => true) demoMulti with
      | .ok t => some (t.info.mode, t.info.name, t.info.pieceLength, t.info.pieces.length, t.httpTrackers)
      | _ => none) = some (.multi [⟨[ascii "d", ascii "f"], 3⟩, ⟨[ascii "g"], 2⟩], ascii "x", 4, 2, [ascii "http://b"]) := by
    decide +kernel
  split at h
  · rename_i t ht
    have := Option.some.inj h
    simp only [Prod.mk.injEq] at this
    exact ⟨t, ht, this⟩
  · simp at h

/-- The hypotheses of `C130_starts_partial` are met. -/
theorem demo_start : ∃ t tree s, (Torrent.fromBuf demoSha1 (fun _ => true) demoMulti = .ok t) ∧
    launch demoSha1 (fun _ => true) demoWorld (demoMachine demoMulti none demoHome true) (demoChance 0#8) =
      (tree, .ok s) ∧ Underway t s ∧ Started demoWorld (setupOf t (.default (exId 0#8)) (demoChance 0#8)) s := by
  obtain ⟨t, ht, h1, h2, h3, h4, h5⟩ := demoMulti_ok
  have hname : NormalName t.info.name := by rw [h2]; unfold NormalName; decide
  obtain ⟨tree, s, hl, hu, h0, -⟩ := C130_starts_partial demoSha1 (fun _ => true) demoWorld
    (demoMachine demoMulti none demoHome true) (demoChance 0#8) demoMulti t (.default (exId 0#8)) rfl ht rfl rfl rfl
    (by rw [h3]; decide) (by rw [h3, h4]; decide)
    (by
      intro files hf
      rw [h1] at hf
      cases hf
      refine ⟨hname, ?_⟩
      unfold NormalName
      decide)
    (by
      intro files hf
      refine ⟨demoBase, by unfold LeadsTo; decide +kernel, fun q => ?_⟩
      rw [h2]
      show Map.get? demoHome _ = none
      simp [demoHome, Map.get?, demoBase])
    (fun _ => rfl)
    (by
      intro files hf
      rw [h1] at hf
      cases hf
      have h : DirBuilder.inserted [⟨[ascii "d", ascii "f"], 3⟩, ⟨[ascii "g"], 2⟩] = [ascii "d/"] := by decide
      rw [h]
      exact ⟨by decide, fun _ => Iff.rfl⟩)
  exact ⟨t, tree, s, ht, hl, hu, h0⟩

/-- The hypotheses of `C130_again_violated` are met: the first start is as it
should be, and after the second nothing is downloaded. -/
example : ∃ t tree s tree2 s2, Torrent.fromBuf demoSha1 (fun _ => true) demoMulti = .ok t ∧
    launch demoSha1 (fun _ => true) demoWorld (demoMachine demoMulti none demoHome true) (demoChance 0#8) =
      (tree, .ok s) ∧ Underway t s ∧
    launch demoSha1 (fun _ => true) demoWorld (demoMachine demoMulti none tree true) (demoChance 0#8) =
      (tree2, .ok s2) ∧ DoesNothing demoWorld s2 := by
  obtain ⟨t, tree, s, ht, hl, hu, -⟩ := demo_start
  obtain ⟨t', ht', h1, h2, -⟩ := demoMulti_ok
  rw [ht] at ht'
  cases ht'
  have hname : NormalName t.info.name := by rw [h2]; unfold NormalName; decide
  have h2' := launch_eq (w := demoWorld) (m := demoMachine demoMulti none tree true) (c := demoChance 0#8) rfl ht rfl rfl
  have htree : session demoWorld (demoMachine demoMulti none demoHome true) (demoChance 0#8) []
      (fun tree _ _ => decide (tree.walk [] (names STORAGE) = some demoBase)) = some true := by decide +kernel
  unfold session at htree
  rw [hl] at htree
  have hb := of_decide_eq_true (Option.some.inj htree)
  exact ⟨t, tree, s, _, _, ht, hl, hu, h2', (C130_again_violated demoSha1 (fun _ => true) demoWorld demoWorld _ _
    (demoChance 0#8) (demoChance 0#8) tree s _ demoMulti t _ rfl ht h1 hname demoBase (by unfold LeadsTo; decide +kernel) hl
    hu.manager rfl (show LeadsTo (demoMachine demoMulti none tree true).tree STORAGE demoBase from hb) (fun _ h => h) _ h2').2.2⟩

/-- The hypotheses of `C130_retry_partial` are met: one directory of the torrent may not be made. -/
example : ∃ t tree s, Torrent.fromBuf demoSha1 (fun _ => true) demoMulti = .ok t ∧
    launch demoSha1 (fun _ => true) demoWorld { demoMachine demoMulti none demoHome true with
      allowed := fun l => decide (l.getLast? ≠ some (ascii "d")) } (demoChance 0#8) = (tree, .ok s) ∧ s.swarm.man ≠ .loop ∧
    0 < t.info.pieceLength := by
  obtain ⟨t, ht, _, _, h3, _⟩ := demoMulti_ok
  have : session demoWorld { demoMachine demoMulti none demoHome true with
      allowed := fun l => decide (l.getLast? ≠ some (ascii "d")) } (demoChance 0#8) []
      (fun _ _ s => decide (s.swarm.man ≠ .loop)) = some true := by decide +kernel
  obtain ⟨tree, s0, es, s, hl, hr, hf⟩ := session_sound this
  have hl' := launch_eq (w := demoWorld) (m := { demoMachine demoMulti none demoHome true with
      allowed := fun l => decide (l.getLast? ≠ some (ascii "d")) }) (c := demoChance 0#8) rfl ht rfl rfl
  refine ⟨t, tree, s0, ht, hl, ?_, by rw [h3]; decide⟩
  unfold session at this
  rw [hl] at this
  exact of_decide_eq_true (Option.some.inj this)

/-- The hypotheses of `C130_zero_violated` are met. -/
example : ∃ t tree s, Torrent.fromBuf demoSha1 (fun _ => true) (sizedMetainfo "0" "20:aaaaaaaaaaaaaaaaaaaa") = .ok t ∧
    t.info.pieceLength = 0 ∧ launch demoSha1 (fun _ => true) demoWorld
      (demoMachine (sizedMetainfo "0" "20:aaaaaaaaaaaaaaaaaaaa") none demoHome true) (demoChance 0#8) = (tree, .ok s) := by
  obtain ⟨t, h1, h2⟩ := C61_zero_violated
  exact ⟨t, _, _, h1, h2, launch_eq rfl h1 rfl rfl⟩

/-- The hypotheses of `C130_huge_violated` are met: the torrent has a tracker, which is never sent anything. -/
example : ∃ t tree s, Torrent.fromBuf demoSha1 (fun _ => true)
      (sizedMetainfo "18446744073709551615" "40:aaaaaaaaaaaaaaaaaaaabbbbbbbbbbbbbbbbbbbb") = .ok t ∧
    2 ^ 64 ≤ t.info.pieces.length * t.info.pieceLength ∧ t.httpTrackers = [ascii "http://b"] ∧
    launch demoSha1 (fun _ => true) demoWorld (demoMachine
      (sizedMetainfo "18446744073709551615" "40:aaaaaaaaaaaaaaaaaaaabbbbbbbbbbbbbbbbbbbb") none demoHome true)
      (demoChance 0#8) = (tree, .ok s) ∧ s.trackers.length = 1 := by
  have h : (match Torrent.fromBuf demoSha1 (fun _ => true)
        (sizedMetainfo "18446744073709551615" "40:aaaaaaaaaaaaaaaaaaaabbbbbbbbbbbbbbbbbbbb") with
      | .ok t => decide (2 ^ 64 ≤ t.info.pieces.length * t.info.pieceLength ∧ t.httpTrackers = [ascii "http://b"])
      | _ => false) = true := by decide +kernel
  split at h
  · rename_i t ht
    obtain ⟨h1, h2⟩ := of_decide_eq_true h
    refine ⟨t, _, _, ht, h1, h2, launch_eq rfl ht rfl rfl, ?_⟩
    show (t.httpTrackers.map _).length = 1
    rw [h2]; rfl
  · cases h

/-- The ping to a node that a peer told of is not sent when the UDP port is in use: the hypotheses of `C130_port_violated`
are met, by a history in which a datagram would have left. -/
example : ∃ tree s0 es s, launch demoSha1 (fun _ => true) demoWorld (demoMachine demoMulti none demoHome false)
      (demoChance 0#8) = (tree, .ok s0) ∧ Run demoWorld s0 es s ∧ s.dht.manTodo.length = 1 := by
  have : session demoWorld (demoMachine demoMulti none demoHome false) (demoChance 0#8)
      (portTold.take 9) (fun _ _ s => s.dht.manTodo.length) = some 1 := by decide +kernel
  obtain ⟨tree, s0, es, s, h1, h2, h3⟩ := session_sound this
  exact ⟨tree, s0, es, s, h1, h2, h3⟩

/-- The table after the node that the peer told of has answered. -/
def demoLearnt : RoutingTable :=
  match (RoutingTable.default (exId 0#8)).touchNode 0 (exId 7#8) ⟨peerA.addr.ip, 7000#16⟩ with
  | .ok t => t
  | _ => .default (exId 0#8)

/-- A node that a peer told of is asked and answers. -/
def learns : List Act := portTold ++ [.datagram (some ⟨peerA.addr.ip, 7000#16⟩)
  (Krpc.Message.response (tidOf 1#8) typeR (.ping (exId 7#8))).intoBytes, .putAnswer, .takeAnswer, .spawns 0]

/-- Ctrl-C is pressed, and the table is about to be stored. -/
def learnsAndStops : List Act := learns ++ [.ev .signal, .ev (.trackerNotices 0), .ev (.tableNotices [.stored demoLearnt])]

/-- A session in which a node is learnt, which ends by Ctrl-C. -/
def learnsAndEnds : List Act := learnsAndStops ++ [.ev (.trackerEnds 0), .ev (.dht { stored := some demoLearnt }), .ev .tableEnds,
  .ev .exits]

/-- The session in which a node is learnt, up to its end. -/
theorem demo_session : ∃ tree s0 es s, launch demoSha1 (fun _ => true) demoWorld (demoMachine demoMulti none demoHome true)
      (demoChance 0#8) = (tree, .ok s0) ∧ Run demoWorld s0 es s ∧ .exits ∈ es ∧ ¬ FatalDatagram es ∧
    .torrent .manDies ∉ es ∧ s.dht.man.table.iterNodes.map (fun n => (n.id, n.addr)) =
      [(exId 7#8, ⟨peerA.addr.ip, 7000#16⟩)] := by
  have : session demoWorld (demoMachine demoMulti none demoHome true) (demoChance 0#8) learnsAndEnds (fun _ es s =>
      (es.any (fun e => match e with | .exits => true | _ => false),
        (dhtEvents es).any (fun e => e.fatal.isSome),
        es.any (fun e => match e with | .torrent .manDies => true | _ => false),
        s.dht.man.table.iterNodes.map (fun n => (n.id, n.addr)))) =
      some (true, false, false, [(exId 7#8, ⟨peerA.addr.ip, 7000#16⟩)]) := by decide +kernel
  obtain ⟨tree, s0, es, s, h1, h2, h3⟩ := session_sound this
  simp only [Prod.mk.injEq] at h3
  obtain ⟨f1, f2, f3, f4⟩ := h3
  refine ⟨tree, s0, es, s, h1, h2, ?_, ?_, ?_, f4⟩
  · obtain ⟨e, he, hm⟩ := List.any_eq_true.mp f1
    split at hm
    · exact he
    · cases hm
  · rintro ⟨e, he, hf⟩
    have := List.any_eq_false.mp f2 e he
    exact this hf
  · intro hin
    exact List.any_eq_false.mp f3 _ hin rfl

/-- The hypotheses of `C131_sessions` and `C132_next_partial` are met: after a session in which a node was learnt, the next
start has this node, which has answered in that session. -/
example : ∃ es file table, Sessions demoSha1 (fun _ => true) [es] file ∧
    TableFile.newTable (exId 9#8) file = .ok table ∧
    table.iterNodes.map (fun n => (n.id, n.addr)) = [(exId 7#8, ⟨peerA.addr.ip, 7000#16⟩)] ∧
    ∀ n ∈ table.iterNodes, AnsweredUs table.ownId (dhtEvents es) n.id n.addr := by
  obtain ⟨t, tree', s0', -, hl', -, h0⟩ := demo_start
  obtain ⟨tree, s0, es, s, hl, hr, f1, f2, f3, f4⟩ := demo_session
  rw [hl'] at hl
  cases hl
  have hs : Sessions demoSha1 (fun _ => true) ([] ++ [es]) _ := .session .new rfl hl' hr .kept
  obtain ⟨table, g1, g2, g3⟩ := C132_next_partial demoSha1 (fun _ => true) [] none _ .new _ _ _ _ _ _ _ _ rfl hl' h0 hr f1 f2 f3
    .kept (exId 9#8)
  obtain ⟨table', k1, -, k2⟩ := C131_sessions demoSha1 (fun _ => true) _ _ hs (exId 9#8)
  rw [g1] at k1
  cases k1
  refine ⟨es, _, table, hs, g1, g3.trans f4, fun n hn => ?_⟩
  obtain ⟨es', h1, h2⟩ := k2 n hn
  rw [List.nil_append, List.mem_singleton] at h1
  rw [← h1]; exact h2

/-- The hypotheses of `C132_crash_violated` are met, when the table holds a node. -/
example : ∃ s0 es s, Run demoWorld s0 es s ∧ s.dht.man.status = .finished ∧ s.dht.manTodo = [.stored demoLearnt] ∧
    demoLearnt.iterNodes.length = 1 := by
  have : session demoWorld (demoMachine demoMulti none demoHome true) (demoChance 0#8) learnsAndStops (fun _ _ s =>
      (s.dht.man.status, s.dht.manTodo)) = some (.finished, [.stored demoLearnt]) := by decide +kernel
  obtain ⟨tree, s0, es, s, h1, h2, h3⟩ := session_sound this
  simp only [Prod.mk.injEq] at h3
  exact ⟨s0, es, s, h2, h3.1, h3.2, by decide +kernel⟩

/-- The hypotheses of `C132_killed_violated` are met, when the table holds a node. -/
example : ∃ tree s0 es s, launch demoSha1 (fun _ => true) demoWorld (demoMachine demoMulti none demoHome true)
      (demoChance 0#8) = (tree, .ok s0) ∧ Run demoWorld s0 es s ∧ (∀ outs, .tableNotices outs ∉ es) ∧
    s.dht.man.table.iterNodes.length = 1 := by
  have : session demoWorld (demoMachine demoMulti none demoHome true) (demoChance 0#8) learns (fun _ es s =>
      (es.any (fun e => match e with | .tableNotices _ => true | _ => false), s.dht.man.table.iterNodes.length)) =
      some (false, 1) := by decide +kernel
  obtain ⟨tree, s0, es, s, h1, h2, h3⟩ := session_sound this
  simp only [Prod.mk.injEq] at h3
  exact ⟨tree, s0, es, s, h1, h2, fun outs hin => List.any_eq_false.mp h3.1 _ hin rfl, h3.2⟩

end Program

end Nargun
