import Verif.Lemmas.Swarm

/-! # Running concrete histories of the torrent side

`Swarm.attempt` does what an event says, if it can happen; used for examples only. -/

namespace Nargun.Swarm

open Nargun Spec

/-- An executable version of some of the steps. -/
def attempt (c : Cfg) (s : State) : Event → Option State
  | .man (.peers (.insert q)) => some { s with tm := { s.tm with peers := s.tm.peers.insert q } }
  | .man (.tick batch) =>
    if s.man = .loop ∧ s.tm.slots = 0 then
      match s.tm.beginTick c.p with
      | .ok (tm', b) => if b = batch then some { s with tm := tm' } else none
      | _ => none
    else none
  | .man .nothing =>
    if s.man = .loop ∧ s.tm.slots ≠ 0 ∧ s.tm.selectPiece = .ok none then some { s with tm := { s.tm with slots := 0 } } else none
  | .man (.start q i h true) =>
    if s.man = .adding q i h ∧ s.poisoned = false ∧ s.tm.slots ≠ 0 then
      match s.tm.startDownloadingPiece i q (.ok ()) with
      | .ok (tm', true) =>
        some { s with tm := { tm' with slots := s.tm.slots - 1 }, man := .loop, pend := addPieceAnyway s.pend i }
      | _ => none
    else none
  | .man (.start q i h false) =>
    if s.man = .sending q i h ∧ (s.links q).dlAlive = false ∧ s.tm.slots ≠ 0 then
      match s.tm.startDownloadingPiece i q .err with
      | .ok (tm', false) => some { s with tm := { tm' with slots := s.tm.slots - 1 }, man := .loop }
      | _ => none
    else none
  | .man (.msg q m) =>
    if s.man = .loop ∧ s.tm.slots = 0 ∧ s.inbox.head? = some (q, m) then
      match s.tm.handleCommand c.p q m with
      | .ok tm' => some { s with tm := tm', inbox := s.inbox.tail }
      | _ => none
    else none
  | .choose q i h =>
    if s.man = .loop ∧ s.tm.slots ≠ 0 ∧ s.tm.selectPiece = .ok (some (q, i, h)) ∧ q ∈ s.tm.connection.peers then
      some { s with man := .sending q i h }
    else none
  | .command q i h =>
    if s.man = .sending q i h ∧ (s.links q).dlAlive = true ∧ (s.links q).commands.length < MESSAGE_CHANNEL_BUFFER then
      some { s.setLink q { s.links q with commands := (s.links q).commands ++ [(h, i)] } with man := .adding q i h }
    else none
  | .manDies =>
    match s.man with
    | .adding _ _ _ => if s.poisoned = true then some s.manDies else none
    | .loop =>
      if s.tm.slots = 0 then
        match s.inbox with
        | (q, m) :: _ => if s.tm.handleCommand c.p q m = .panic then some s.manDies else none
        | [] => none
      else none
    | _ => none
  | .shake q ok =>
    if q ∈ s.tm.connection.spawned ∧ (s.links q).con = .handshake then
      some (s.setLink q { s.links q with con := if ok then .reading else .unreachable })
    else none
  | .unreachable q =>
    if q ∈ s.tm.connection.spawned ∧ (s.links q).con = .unreachable ∧ s.man ≠ .dead ∧
        s.inbox.length < MESSAGE_CHANNEL_BUFFER then
      some { s.setLink q (s.links q).conEnds with inbox := s.inbox ++ [(q, .unreachable)] }
    else none
  | .read q chunk =>
    if q ∈ s.tm.connection.spawned ∧ (s.links q).con = .reading ∧ chunk.length ≤ (s.links q).recv.capacity then
      match (s.links q).recv.onRead chunk with
      | .ok r => some (s.setLink q { s.links q with con := .parsing, recv := r })
      | _ => none
    else none
  | .readFails q =>
    if q ∈ s.tm.connection.spawned ∧ (s.links q).con = .reading then some (s.setLink q (s.links q).conEnds) else none
  | .parsed q m =>
    if q ∈ s.tm.connection.spawned ∧ (s.links q).con = .parsing then
      match (s.links q).recv.drain 1 with
      | .ok (r, [m']) => if m' = m then some (s.setLink q { s.links q with con := .handing m, recv := r }) else none
      | _ => none
    else none
  | .parsedAll q =>
    if q ∈ s.tm.connection.spawned ∧ (s.links q).con = .parsing then
      match (s.links q).recv.drain 1 with
      | .ok (r, []) => some (s.setLink q { s.links q with con := .reading, recv := r })
      | _ => none
    else none
  | .handed q m =>
    if q ∈ s.tm.connection.spawned ∧ (s.links q).con = .handing m then
      match m with
      | .piece b =>
        if (s.links q).dlAlive = true ∧ (s.links q).blocks.length < MESSAGE_CHANNEL_BUFFER then
          some (s.setLink q { s.links q with con := .parsing, blocks := (s.links q).blocks ++ [b] })
        else none
      | m =>
        match handleMessage q m with
        | [.toDht a] =>
          if s.dhtOpen = true ∧ s.dht.length < DHT_CAP then
            some { s.setLink q { s.links q with con := .parsing } with dht := s.dht ++ [a] }
          else none
        | [.toPeers _ t] =>
          if s.man ≠ .dead ∧ s.inbox.length < MESSAGE_CHANNEL_BUFFER then
            some { s.setLink q { s.links q with con := .parsing } with inbox := s.inbox ++ [(q, t)] }
          else none
        | _ => none
    else none
  | .wrote q m =>
    if q ∈ s.tm.connection.spawned ∧ (s.links q).con = .reading ∧ (s.links q).sends.head? = some m then
      some (s.setLink q { s.links q with sends := (s.links q).sends.tail })
    else none
  | .conLeaves q =>
    if q ∈ s.tm.connection.spawned ∧ (s.links q).con = .reading ∧ (s.links q).sends = [] ∧ (s.links q).dlAlive = false ∧
        s.man = .dead then
      some (s.setLink q (s.links q).conEnds)
    else none
  | .dl q (.start h i) =>
    if q ∈ s.tm.connection.spawned ∧ (s.links q).dlAlive = true ∧ (s.links q).report = none ∧
        (s.links q).commands.head? = some (h, i) ∧ (s.links q).dl.pc = .select then
      some (s.setLink q { s.links q with dl := Dl.start (s.links q).dl h i, commands := (s.links q).commands.tail })
    else none
  | .dl q (.block b out) =>
    if q ∈ s.tm.connection.spawned ∧ (s.links q).dlAlive = true ∧ (s.links q).report = none ∧
        (s.links q).blocks.head? = some b ∧ s.poisoned = false ∧ (s.links q).dl.pc = .select then
      match Dl.foo c.p c.hash (s.links q).dl s.pend b with
      | .ok (d', pend', out') =>
        if out' = out then
          some { s.setLink q { s.links q with dl := d', blocks := (s.links q).blocks.tail, report := reportOf out } with
                 pend := pend' }
        else none
      | _ => none
    else none
  | .dl q (.take got) =>
    if q ∈ s.tm.connection.spawned ∧ (s.links q).dlAlive = true ∧ (s.links q).report = none ∧ s.poisoned = false ∧
        (s.links q).dl.pc = .take then
      match Dl.take (s.links q).dl s.pend (c.owner q) 0 16 with
      | .ok (d', pend', got') =>
        if got' = got then some { s.setLink q { s.links q with dl := d' } with pend := pend' } else none
      | _ => none
    else none
  | .dl q (.request a r) =>
    if q ∈ s.tm.connection.spawned ∧ (s.links q).dlAlive = true ∧ (s.links q).report = none ∧
        (s.links q).con ≠ .ended ∧ (s.links q).sends.length < MESSAGE_CHANNEL_BUFFER ∧ (s.links q).dl.pc = .send then
      match Dl.sendNext (s.links q).dl.currentBlocks with
      | some (a', bs) =>
        if a' = a ∧ .ofBlockAddress a = r then
          some (s.setLink q { s.links q with dl := { (s.links q).dl with currentBlocks := bs },
                                             sends := (s.links q).sends ++ [.request r] })
        else none
      | none => none
    else none
  | .dl q .loop =>
    if q ∈ s.tm.connection.spawned ∧ (s.links q).dlAlive = true ∧ (s.links q).report = none ∧
        (s.links q).dl.pc = .send ∧ Dl.sendNext (s.links q).dl.currentBlocks = none then
      some (s.setLink q { s.links q with
        dl := { (s.links q).dl with pc := .select, counter := (s.links q).dl.counter + 1 } })
    else none
  | .reported q i bs =>
    if q ∈ s.tm.connection.spawned ∧ (s.links q).dlAlive = true ∧ (s.links q).report = some (i, bs) ∧ s.man ≠ .dead ∧
        s.inbox.length < MESSAGE_CHANNEL_BUFFER then
      some { s.setLink q { s.links q with report := none } with inbox := s.inbox ++ [(q, .finishedPiece i bs)] }
    else none
  | .dlDies q =>
    if q ∈ s.tm.connection.spawned ∧ (s.links q).dlAlive = true ∧ (s.links q).report = none then
      if (s.links q).dl.pc = .take ∧ s.poisoned = false ∧
          Dl.take (s.links q).dl s.pend (c.owner q) 0 16 = .panic then
        some { s.setLink q (s.links q).dlEnds with poisoned := true }
      else if (s.links q).dl.pc = .select ∧ (s.links q).blocks = [] ∧ (s.links q).con = .ended then
        some (s.setLink q (s.links q).dlEnds)
      else if (s.links q).dl.pc = .select ∧ (s.links q).commands = [] ∧ s.man = .dead then
        some (s.setLink q (s.links q).dlEnds)
      else if (s.links q).dl.pc = .select ∧ s.poisoned = false then
        match (s.links q).blocks with
        | b :: _ =>
          if Dl.foo c.p c.hash (s.links q).dl s.pend b = .panic then
            some { s.setLink q (s.links q).dlEnds with
              pend := (leftBehind c.p s.pend b).1, poisoned := (leftBehind c.p s.pend b).2 }
          else none
        | [] => none
      else none
    else none
  | .dhtTakes a =>
    if s.dht.head? = some a ∧ s.dhtOpen = true then some { s with dht := s.dht.tail } else none
  | _ => none

theorem head?_tail {α : Type} {l : List α} {a : α} (h : l.head? = some a) : l = a :: l.tail := by
  cases l with
  | nil => simp at h
  | cons b l => simp at h; subst h; rfl

theorem toDht_port {q : Peer} {m : Message} {a : SockAddr} (h : handleMessage q m = [.toDht a]) : ∃ port, m = .port port := by
  cases m <;> simp [handleMessage, ConMessageType.tryFrom] at h ⊢

theorem toPeers_peer {q k : Peer} {m : Message} {t : ConMessageType} (h : handleMessage q m = [.toPeers k t]) : k = q := by
  cases m <;> simp [handleMessage, ConMessageType.tryFrom] at h <;> exact h.1.symm

theorem attempt_sound {c : Cfg} {s s' : State} {e : Event} (h : attempt c s e = some s') : Step c s e s' := by
  unfold attempt at h
  split at h
  · cases h; exact .shared (.peers .insert)
  · split at h
    · next hc =>
      split at h
      · next hb =>
        split at h
        · next e => subst e; cases h; exact .tick hc.1 (.tick hc.2 hb)
        · cases h
      · cases h
    · cases h
  · split at h
    · next hc =>
      cases h
      obtain ⟨k, hk⟩ := Nat.exists_eq_succ_of_ne_zero hc.2.1
      exact .nothing hc.1 (.nothing hk hc.2.2)
    · cases h
  · split at h
    · next hc =>
      split at h
      · next hb =>
        cases h
        obtain ⟨k, hk⟩ := Nat.exists_eq_succ_of_ne_zero hc.2.2
        rw [hk]
        exact .add hc.1 hc.2.1 hk hb
      · cases h
    · cases h
  · split at h
    · next hc =>
      split at h
      · next hb =>
        cases h
        obtain ⟨k, hk⟩ := Nat.exists_eq_succ_of_ne_zero hc.2.2
        rw [hk]
        exact .putFails hc.1 hc.2.1 hk hb
      · cases h
    · cases h
  · split at h
    · next hc =>
      split at h
      · next hb => cases h; exact .msg hc.1 (head?_tail hc.2.2) (.msg hc.2.1 hb)
      · cases h
    · cases h
  · split at h
    · next hc =>
      cases h
      obtain ⟨k, hk⟩ := Nat.exists_eq_succ_of_ne_zero hc.2.1
      exact .choose hc.1 hk hc.2.2.1 hc.2.2.2
    · cases h
  · split at h
    · next hc => cases h; exact .put hc.1 hc.2.1 hc.2.2
    · cases h
  · split at h
    · next hm =>
      split at h
      · next hp => cases h; exact .addPoisoned hm hp
      · cases h
    · next hm =>
      split at h
      · next hz =>
        split at h
        · next hi =>
          split at h
          · next hp => cases h; exact .msgPanics hm hz hi hp
          · cases h
        · cases h
      · cases h
    · cases h
  · next q ok =>
    split at h
    · next hc =>
      cases h
      cases ok
      · exact .shakeFails hc.1 hc.2
      · exact .shakeOk hc.1 hc.2
    · cases h
  · split at h
    · next hc => cases h; exact .unreachable hc.1 hc.2.1 hc.2.2.1 hc.2.2.2
    · cases h
  · split at h
    · next hc =>
      split at h
      · next hb => cases h; exact .read hc.1 hc.2.1 hc.2.2 hb
      · cases h
    · cases h
  · split at h
    · next hc => cases h; exact .readFails hc.1 hc.2
    · cases h
  · split at h
    · next hc =>
      split at h
      · next hb =>
        split at h
        · next e => subst e; cases h; exact .parsed hc.1 hc.2 hb
        · cases h
      · cases h
    · cases h
  · split at h
    · next hc =>
      split at h
      · next hb => cases h; exact .parsedAll hc.1 hc.2 hb
      · cases h
    · cases h
  · split at h
    · next hc =>
      split at h
      · split at h
        · next hd => cases h; exact .handBlock hc.1 hc.2 hd.1 hd.2
        · cases h
      · split at h
        · next ha =>
          split at h
          · next hd =>
            cases h
            obtain ⟨port, rfl⟩ := toDht_port ha
            exact .handPort hc.1 hc.2 hd.1 ha hd.2
          · cases h
        · next ha =>
          split at h
          · next hd =>
            cases h
            have := toPeers_peer ha
            subst this
            exact .handOther hc.1 hc.2 ha hd.1 hd.2
          · cases h
        · cases h
    · cases h
  · split at h
    · next hc => cases h; exact .wrote hc.1 (.inl hc.2.1) (head?_tail hc.2.2)
    · cases h
  · split at h
    · next hc => cases h; exact .conLeaves hc.1 (.inl hc.2.1) hc.2.2.1 hc.2.2.2.1 hc.2.2.2.2
    · cases h
  · split at h
    · next hc =>
      cases h
      exact .dlStart hc.1 hc.2.1 hc.2.2.1 (head?_tail hc.2.2.2.1) (pend' := s.pend) (.start hc.2.2.2.2)
    · cases h
  · split at h
    · next hc =>
      split at h
      · next hb =>
        split at h
        · next e =>
          subst e; cases h
          exact .dlBlock hc.1 hc.2.1 hc.2.2.1 (head?_tail hc.2.2.2.1) (.inl hc.2.2.2.2.1) (.block hc.2.2.2.2.2 hb)
        · cases h
      · cases h
    · cases h
  · split at h
    · next hc =>
      split at h
      · next hb =>
        split at h
        · next e =>
          subst e; cases h
          exact .dlTake hc.1 hc.2.1 hc.2.2.1 (.inl hc.2.2.2.1) (.take hc.2.2.2.2 hb)
        · cases h
      · cases h
    · cases h
  · split at h
    · next hc =>
      split at h
      · next hb =>
        split at h
        · next e =>
          obtain ⟨rfl, rfl⟩ := e; cases h
          exact .dlRequest hc.1 hc.2.1 hc.2.2.1 hc.2.2.2.1 hc.2.2.2.2.1 (pend' := s.pend) (.request hc.2.2.2.2.2 hb)
        · cases h
      · cases h
    · cases h
  · split at h
    · next hc =>
      cases h
      exact .dlLoop hc.1 hc.2.1 hc.2.2.1 (pend' := s.pend) (.loop hc.2.2.2.1 hc.2.2.2.2)
    · cases h
  · split at h
    · next hc => cases h; exact .reported hc.1 hc.2.1 hc.2.2.1 hc.2.2.2.1 hc.2.2.2.2
    · cases h
  · split at h
    · next hc =>
      split at h
      · next hd => cases h; exact .takePanics hc.1 hc.2.1 hc.2.2 hd.1 hd.2.1 hd.2.2
      · split at h
        · next hd => cases h; exact .noBlocks hc.1 hc.2.1 hc.2.2 hd.1 hd.2.1 hd.2.2
        · split at h
          · next hd => cases h; exact .noCommands hc.1 hc.2.1 hc.2.2 hd.1 hd.2.1 hd.2.2
          · split at h
            · next hd =>
              split at h
              · next hb =>
                split at h
                · next hp => cases h; exact .blockPanics hc.1 hc.2.1 hc.2.2 hd.1 hb hd.2 hp
                · cases h
              · cases h
            · cases h
    · cases h
  · split at h
    · next hc => cases h; exact .dhtTakes (head?_tail hc.1) hc.2
    · cases h
  · cases h

/-- All events of a script in turn. -/
def play (c : Cfg) : List Event → State → Option State
  | [], s => some s
  | e :: es, s => (attempt c s e).bind (play c es)

theorem Run.cons {c : Cfg} {s s1 s2 : State} {e : Event} {es : List Event} (hs : Step c s e s1) (h : Run c s1 es s2) :
    Run c s (e :: es) s2 := by
  induction h with
  | nil => exact Run.snoc (es := []) .nil hs
  | snoc hr hs' ih => exact Run.snoc (es := e :: _) ih hs'

theorem Run.append {c : Cfg} {s s1 s2 : State} {es es' : List Event} (h1 : Run c s es s1) (h2 : Run c s1 es' s2) :
    Run c s (es ++ es') s2 := by
  induction h2 with
  | nil => simpa using h1
  | snoc _ hs ih => rw [← List.append_assoc]; exact ih.snoc hs

theorem run_of_play {c : Cfg} {es : List Event} {s s' : State} (h : play c es s = some s') : Run c s es s' := by
  induction es generalizing s with
  | nil => cases h; exact .nil
  | cons e es ih =>
    simp only [play, Option.bind_eq_some_iff] at h
    obtain ⟨s1, h1, h2⟩ := h
    exact Run.cons (attempt_sound h1) (ih h2)

/-- A script from the start; what `f` finds in the final state. -/
def demo {α : Type} (c : Cfg) (pieces : List ID) (pl : Nat) (es : List Event) (f : State → α) : Option α :=
  match State.start pieces pl (.new ⟨List.replicate 20 0#8, by decide⟩) with
  | .ok s0 => (play c es s0).map f
  | _ => none

theorem run_of_demo {α : Type} {c : Cfg} {pieces : List ID} {pl : Nat} {es : List Event} {f : State → α} {a : α}
    (hp : pieces ≠ []) (h : demo c pieces pl es f = some a) :
    ∃ s0 s, Started pieces pl s0 ∧ Run c s0 es s ∧ f s = a := by
  simp only [demo] at h
  split at h
  · next s0 h0 =>
    simp only [Option.map_eq_some_iff] at h
    obtain ⟨s, h1, h2⟩ := h
    exact ⟨s0, s, ⟨hp, _, h0⟩, run_of_play h1, h2⟩
  · cases h

end Nargun.Swarm
