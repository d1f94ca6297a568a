import Verif.Props.Launch
import Verif.Props.ProgramJoins

/-! # C151: the client finds its way into the DHT, over all sessions -/

namespace Nargun.Program

open Nargun Dht Krpc Spec DhtSystem DhtManager

/-- However the manager and the trackers fare, the DHT begins in the same way, if it has its port. -/
theorem launched_began {w : World} {m : Machine} {c : Chance} {t : Torrent} {table : RoutingTable} (hu : m.udpFree = true) :
    Began (setupOf t table c) (launched w m c t table) := by
  have hs : ∀ s : Swarm.State, Swarm.State.start t.info.pieces t.info.pieceLength (.new t.infoHash) = .ok s →
      s.tm.peers = .new t.infoHash ∧ s.dht = [] := by
    intro s h
    simp only [Swarm.State.start] at h
    obtain ⟨tm, h1, h⟩ := Res.bind_eq_ok.mp h
    obtain ⟨pend, _, h⟩ := Res.bind_eq_ok.mp h
    simp only [TM.init] at h1
    obtain ⟨_, _, h1⟩ := Res.bind_eq_ok.mp h1
    cases h1
    rw [← Res.ok.inj h]
    exact ⟨rfl, rfl⟩
  have key : (launched w m c t table).swarm.tm.peers = .new t.infoHash ∧ (launched w m c t table).swarm.dht = [] := by
    show (startManager m.allowed c.order t.info (.new t.infoHash) m.tree).2.tm.peers = _ ∧
      (startManager m.allowed c.order t.info (.new t.infoHash) m.tree).2.dht = _
    unfold startManager
    split
    · split
      · split
        · next s he => exact hs s he
        · exact ⟨rfl, rfl⟩
      · exact ⟨rfl, rfl⟩
    · exact ⟨rfl, rfl⟩
  refine ⟨rfl, ?_, key.2, ?_, rfl⟩
  · show State.torrent _ = _
    have : (launched w m c t table).peers = (launched w m c t table).swarm.tm.peers := key.1.symm
    rw [State.torrent, this]
  · show startDht (setupOf t table c) m.udpFree = _
    rw [hu]; rfl

/-- C151 is violated, over all sessions: the program is run any number of times on a machine where it had never been run
before, with any torrents, trackers, peers and datagrams from outside, and the processes end in any way. As long as no
connected peer tells of its node, no query ever leaves in any of the sessions, to whatever address, and after all of them
the table of nodes is as empty as at the first start. -/
theorem C151_sessions_violated (sha1 : Bytes → ID) (utf8 : Bytes → Bool) (hist : List (List Event)) (file : Option Bytes)
    (h : Sessions sha1 utf8 hist file)
    (hq : ∀ es ∈ hist, ∀ q port, (q, Nargun.Message.port port) ∉ handedOver (torrentEvents es)) :
    (∀ es ∈ hist, ∀ own a v, ¬ HasLeft own (dhtEvents es) a v) ∧
    ∀ nodeId, ∃ table, TableFile.newTable nodeId file = .ok table ∧ table.iterNodes = [] := by
  have none : ∀ es ∈ hist, ∀ own a v, ¬ HasLeft own (dhtEvents es) a v := by
    induction h with
    | new => intro es he; cases he
    | @session hist file w m c tree s0 es s file' hs hfile hl hr hleave ih =>
      have ih := ih fun es' he => hq es' (List.mem_append_left _ he)
      intro es' he
      rcases List.mem_append.mp he with he | he
      · exact ih es' he
      · rw [List.mem_singleton] at he
        subst he
        obtain ⟨buf, t, table, e1, e2, -, e3, rfl, -⟩ := launch_ok hl
        rw [hfile] at e3
        obtain ⟨table', e3', hreach, hans⟩ := C131_sessions sha1 utf8 hist file hs c.nodeId
        obtain rfl : table = table' := Res.ok.inj (e3.symm.trans e3')
        have hempty : table.iterNodes = [] := by
          refine List.eq_nil_iff_forall_not_mem.mpr fun n hn => ?_
          obtain ⟨es1, g1, h1, e, h2, t', y, r, f1, f2, f3, target, v, b, f4, f5, f6⟩ := hans n hn
          refine ih es1 g1 _ target v ⟨t', b, ?_, f5⟩
          rw [f1, sent, List.filterMap_append]
          exact List.mem_append_left _ f4
        cases hu : m.udpFree with
        | true =>
          exact nobody_asked (u := setupOf t table c) hreach (launched_began hu) hr hempty
            (hq es' (List.mem_append_right _ (List.mem_singleton.mpr rfl)))
        | false =>
          rintro own a v ⟨t', b, hm, _⟩
          rw [C130_port_violated sha1 utf8 w m c tree _ s es' hu (fun id table' ht => ?_) hl hr] at hm
          · cases hm
          · rw [hfile] at ht
            obtain ⟨table1, k1, k2, -⟩ := C131_sessions sha1 utf8 hist file hs id
            rw [ht] at k1
            rw [Res.ok.inj k1]; exact k2
  refine ⟨none, fun nodeId => ?_⟩
  obtain ⟨table, g1, g2, g3⟩ := C131_sessions sha1 utf8 hist file h nodeId
  refine ⟨table, g1, List.eq_nil_iff_forall_not_mem.mpr fun n hn => ?_⟩
  obtain ⟨es1, k1, h1, e, h2, t', y, r, f1, f2, f3, target, v, b, f4, f5, f6⟩ := g3 n hn
  refine none es1 k1 _ target v ⟨t', b, ?_, f5⟩
  rw [f1, sent, List.filterMap_append]
  exact List.mem_append_left _ f4

/-- A node asks the client for a ping, and the client answers it. -/
def answersPing : List Act :=
  [.datagram (some (exAddr 9)) (Krpc.Message.pingQuery (exId 9#8) (tidOf 9#8)).intoBytes, .sends]

/-- The hypotheses of `C151_sessions_violated` are met: no peer tells of its node, and the client answers a node that asks. -/
example : ∃ es file, Sessions demoSha1 (fun _ => true) [es] file ∧ handedOver (torrentEvents es) = [] ∧
    asked (dhtEvents es) = [(exAddr 9, tidOf 9#8, .ping)] ∧ (sent (dhtEvents es)).map (·.1) = [exAddr 9] := by
  have : session demoWorld (demoMachine demoMulti none demoHome true) (demoChance 0#8) answersPing (fun _ es _ =>
      decide (handedOver (torrentEvents es) = []) && decide (asked (dhtEvents es) = [(exAddr 9, tidOf 9#8, .ping)]) &&
      decide ((sent (dhtEvents es)).map (·.1) = [exAddr 9])) = some true := by decide +kernel
  obtain ⟨tree, s0, es, s, hl, hr, hf⟩ := session_sound this
  simp only [Bool.and_eq_true, decide_eq_true_eq] at hf
  exact ⟨es, _, .session .new rfl hl hr .kept, hf.1.1, hf.1.2, hf.2⟩

end Nargun.Program
