import Verif.Props.Launch

/-! # C146: the own node is not taken for another -/

namespace Nargun

open Dht Krpc Spec DhtManager RoutingTable

/-- For the own id there is always room. -/
theorem own_stored (t t' : RoutingTable) (h : Reachable t) (now : Nat) (addr : SockAddr) (hu : ¬ Known t t.ownId)
    (he : t.touchNode now t.ownId addr = .ok t') : (⟨t.ownId, addr, some now⟩ : Node) ∈ t'.iterNodes := by
  rcases C67_stored_partial t t' h now t.ownId addr hu he with h1 | ⟨b, hb, hlen, -, hor⟩
  · exact h1
  · exfalso
    obtain ⟨t1, e1, e2⟩ := C64_sighting_total t h now t.ownId addr
    rw [he] at e1
    cases e1
    have hr : Reachable t' := .sighting t t' now t.ownId addr h he
    obtain ⟨s1, s2, s3, s4⟩ := C64_shape t' hr
    rw [e2, sharedPrefix_self] at hor
    unfold responsible at hb hor
    rw [e2, sharedPrefix_self] at hb hor
    have hl : t'.data.length = 161 := by omega
    -- the last bucket holds ids that share 160 bits with the own id
    have hall : ∀ n ∈ b.nodes, n.id = t'.ownId := by
      intro n hn
      have := (s3 _ b hb).2 n hn
      rw [hl] at this
      exact (sharedPrefix_eq_160.mp (by have := sharedPrefix_le t'.ownId n.id; omega)).symm
    have hnd := (Inv.of_reachable hr).bucket_nodup hb
    match hbn : b.nodes, hlen with
    | x :: y :: rest, _ =>
      rw [hbn] at hnd hall
      have hx := hall x (by simp)
      have hy := hall y (by simp)
      simp [hx, hy] at hnd

section

variable {infoHash : ID} {table : RoutingTable} {peers : Peers} {os : List Peers.Op} {now : Nat}
  {pause : Nat → Nat} {h : List DhtManager.Entry} {m : Manager}

theorem own_const (ht : Reachable table) (hp : Peers.Run (.new infoHash) os peers)
    (hr : DhtManager.Run pause (start infoHash table peers now) h m) : m.table.ownId = table.ownId := by
  have hb0 := Base.start (now := now) ht hp
  generalize hs0 : start infoHash table peers now = s0 at hr hb0
  induction hr with
  | nil => subst hs0; rfl
  | snoc hr1 hs ih => exact (kind_own (hb0.run hr1).reach hs).1.trans ih

/-- C146 is violated: as long as the own id is not in the table, whoever answers with it is stored under it, after any history and however full the
table is; and whoever asks for the own node is then told this address. -/
theorem C146_stored_violated (ht : Reachable table) (hp : Peers.Run (.new infoHash) os peers)
    (hr : DhtManager.Run pause (start infoHash table peers now) h m) (hrun : m.status = .running)
    (hu : ¬ Known m.table table.ownId) (addr : SockAddr) :
    ∃ outs m', DhtManager.Step pause m ⟨.resp (.touch table.ownId addr), outs⟩ m' ∧
      (⟨table.ownId, addr, some m.now⟩ : Node) ∈ m'.table.iterNodes ∧
      ∀ qid outs2 m2, DhtManager.Step pause m' ⟨.query (.findNode table.ownId qid), outs2⟩ m2 →
        answers outs2 = [(qid, .findNode (.exact ⟨table.ownId, addr, some m.now⟩))] := by
  have hb := (Base.start (now := now) ht hp).run hr
  obtain ⟨m', outs, h1, _⟩ := (C99_total ht hp hr).2.1 (.touch table.ownId addr)
  have hs : DhtManager.Step pause m ⟨.resp (.touch table.ownId addr), outs⟩ m' := .resp hrun h1
  have h2 := (C98_touch ht hp hr addr table.ownId hs).2.2
  have ho := own_const ht hp hr
  rw [← ho] at h2 hu ⊢
  have hm := own_stored m.table m'.table hb.reach m.now addr hu h2
  refine ⟨outs, m', by rw [ho]; exact hs, hm, fun qid outs2 m2 hs2 => ?_⟩
  have hr' := hr.snoc hs
  rcases (C97_find_node_partial ht hp hr' _ qid hs2).2.2.2 with ⟨nodes, ha, hf⟩ | ⟨-, hk, -⟩
  · rw [ha]
    cases nodes with
    | exact n =>
      obtain ⟨hn, hid⟩ := hf
      have hnd := (C64_shape _ ((Base.start (now := now) ht hp).run hr').reach).2.2.2
      have : n = ⟨m.table.ownId, addr, some m.now⟩ := nodup_ids_inj hnd hn hm hid
      rw [this]
    | closest ns => exact absurd ⟨_, hm, rfl⟩ hf.1
  · exact absurd ⟨_, hm, rfl⟩ hk

end

/-- C146, the part that holds, over all sessions of the program on a machine: when nobody ever answered a query with the own id of
this program, the own id is not in the table. Missing: nobody who does so is refused (`C146_stored_violated`). -/
theorem C146_claimed_partial (sha1 : Bytes → ID) (utf8 : Bytes → Bool) (hist : List (List Program.Event)) (file : Option Bytes)
    (h : Sessions sha1 utf8 hist file) (w : Program.World) (m : Program.Machine) (c : Program.Chance) (tree : Tree)
    (s0 s : Program.State) (es : List Program.Event) (hfile : m.tableFile = file)
    (hl : Program.launch sha1 utf8 w m c = (tree, .ok s0)) (hr : Program.Run w s0 es s)
    (hno : ∀ es' ∈ hist ++ [es], ∀ addr,
      ¬ AnsweredUs s.dht.man.table.ownId (dhtEvents es') s.dht.man.table.ownId addr) :
    ¬ Known s.dht.man.table s.dht.man.table.ownId := by
  obtain ⟨buf, t, table, e1, e2, -, e3, rfl, -⟩ := Program.launch_ok hl
  rw [hfile] at e3
  obtain ⟨table', e3', hreach, hans⟩ := Program.C131_sessions sha1 utf8 hist file h c.nodeId
  obtain rfl : table = table' := Res.ok.inj (e3.symm.trans e3')
  obtain ⟨-, hown, hn⟩ := Program.session_table hreach hr
  rw [hown] at hno ⊢
  rintro ⟨n, hm, hid⟩
  rcases hn n hm with ⟨n0, h0, hid0, -⟩ | ha
  · obtain ⟨es', he, ha⟩ := hans n0 h0
    rw [hid0, hid] at ha
    exact hno es' (List.mem_append_left _ he) _ ha
  · rw [hid] at ha
    exact hno es (by simp) _ ha

/-! ## A concrete case -/

/-- The hypotheses of `C146_stored_violated` are met at the start. -/
example (pause : Nat → Nat) : ∃ outs m', DhtManager.Step pause (exStart 5) ⟨.resp (.touch (exId 0#8) (exAddr 1)), outs⟩ m' ∧
    (⟨exId 0#8, exAddr 1, some 5⟩ : Node) ∈ m'.table.iterNodes := by
  have ht : Reachable (.default (exId 0#8)) := .fresh _
  have hp : Peers.Run (.new (exId 1#8)) [] (.new (exId 1#8)) := .nil
  obtain ⟨outs, m', h1, h2, -⟩ := C146_stored_violated (pause := pause) (now := 5) ht hp .nil rfl
    (by rintro ⟨n, hn, -⟩; exact absurd (show n ∈ ([] : List Node) from hn) (by simp)) (exAddr 1)
  exact ⟨outs, m', h1, h2⟩

end Nargun
