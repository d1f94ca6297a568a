import Verif.Spec.Handle
import Verif.Props.Receiver

/-! # Messages given to peers: C141, C142, and the keep-alive task of C143 -/

namespace Nargun.Handle

open Nargun Spec

variable {s s' : State} {h h' : List Event} {e : Event}

theorem message_eq (c : Call) : c.message = meaning c := by
  cases c with
  | choke yn => cases yn <;> rfl
  | interested yn => cases yn <;> rfl
  | _ => rfl

theorem notes_snoc : notes (h ++ [e]) = (notes h).note e := by simp [notes]

/-- What is known about one connection, given what was said over it. -/
def Conn.Good (c : Conn) (ms : List Message) : Prop :=
  (∀ m ∈ ms, Fits m) → c.out <+: wireAll ms ∧
    (c.phase ≠ .ended → c.broken = false → ∃ done, ms = done ++ c.sends ∧ c.out = wireAll done) ∧
    (c.phase ≠ .ended → ∃ done, ms = done ++ c.sends)

/-- What is known after a history. -/
structure Sound (h : List Event) (s : State) : Prop where
  made : (notes h).made = s.conns.length
  table : ∀ p, s.table.get? p = (notes h).current p
  current : ∀ p i, (notes h).current p = some i → ∃ c : Conn, s.conns[i]? = some c ∧ c.peer = p ∧ c.told = false
  good : ∀ (i : Nat) (c : Conn), s.conns[i]? = some c → c.Good ((notes h).said i)
  silent : ∀ i, s.conns.length ≤ i → (notes h).said i = []

theorem Sound.new : Sound [] State.new where
  made := rfl
  table _ := rfl
  current := by intro p i hc; cases hc
  good := by intro i c hc; simp [State.new] at hc
  silent _ _ := rfl

theorem set_get {l : List Conn} {i j : Nat} {c d e : Conn} (hc : l[i]? = some c) (hd : (l.set i d)[j]? = some e) :
    j = i ∧ e = d ∨ j ≠ i ∧ l[j]? = some e := by
  rw [List.getElem?_set] at hd
  split at hd
  · next hij =>
    subst hij
    split at hd
    · cases hd; exact .inl ⟨rfl, rfl⟩
    · cases hd
  · next hij => exact .inr ⟨fun hc => hij hc.symm, hd⟩

theorem lt_of_get {l : List Conn} {i : Nat} {c : Conn} (hc : l[i]? = some c) : i < l.length := by
  have := List.getElem?_eq_some_iff.mp hc
  exact this.1

/-- A step that changes one connection and nothing else. -/
theorem Sound.upd (hi : Sound h s) {i : Nat} {c d : Conn} (hc : s.conns[i]? = some c) (hp : d.peer = c.peer)
    (ht : d.told = c.told) (hn : (notes (h ++ [e])).made = (notes h).made)
    (hcur : (notes (h ++ [e])).current = (notes h).current)
    (hsaid : ∀ j, j ≠ i → (notes (h ++ [e])).said j = (notes h).said j)
    (hg : d.Good ((notes (h ++ [e])).said i)) : Sound (h ++ [e]) (s.set i d) where
  made := by rw [hn, hi.made]; simp [State.set]
  table p := by rw [hcur]; exact hi.table p
  current p j hj := by
    rw [hcur] at hj
    obtain ⟨c', h1, h2, h3⟩ := hi.current p j hj
    by_cases hij : j = i
    · subst hij
      rw [hc] at h1
      cases h1
      refine ⟨d, ?_, hp.trans h2, ht.trans h3⟩
      simp [State.set, lt_of_get hc]
    · exact ⟨c', by simp [State.set, List.getElem?_set, Ne.symm hij, h1], h2, h3⟩
  good j c' hj := by
    rcases set_get hc hj with ⟨rfl, rfl⟩ | ⟨h1, h2⟩
    · exact hg
    · rw [hsaid j h1]; exact hi.good j c' h2
  silent j hj := by
    have hl : s.conns.length ≤ j := by simpa [State.set] using hj
    rw [hsaid j (by have := lt_of_get hc; omega)]
    exact hi.silent j hl

theorem fits_sub {ms ms' : List Message} (hf : ∀ m ∈ ms ++ ms', Fits m) : ∀ m ∈ ms, Fits m :=
  fun m hm => hf m (List.mem_append_left _ hm)

theorem prefix_more {x : Bytes} {ms ms' : List Message} (hx : x <+: wireAll ms) : x <+: wireAll (ms ++ ms') := by
  rw [wireAll_append]
  exact hx.trans (List.prefix_append _ _)

/-- A message is put into the queue of a connection that has not ended. -/
theorem Conn.Good.more {c : Conn} {ms : List Message} (hg : c.Good ms) (hp : c.phase ≠ .ended) (m : Message) :
    ({ c with sends := c.sends ++ [m] } : Conn).Good (ms ++ [m]) := by
  intro hf
  obtain ⟨h1, h2, h3⟩ := hg (fits_sub hf)
  refine ⟨prefix_more h1, fun _ hb => ?_, fun _ => ?_⟩
  · obtain ⟨done, rfl, h5⟩ := h2 hp hb
    exact ⟨done, by simp, h5⟩
  · obtain ⟨done, rfl⟩ := h3 hp
    exact ⟨done, by simp⟩

theorem Sound.step (hi : Sound h s) (hs : Step s e s') : Sound (h ++ [e]) s' := by
  cases hs with
  | @again p i hp =>
    have : notes (h ++ [.connect p]) = notes h := by
      rw [notes_snoc, Notes.note, if_neg (by rw [← hi.table, hp]; simp)]
    exact ⟨by rw [this]; exact hi.made, by rw [this]; exact hi.table, by rw [this]; exact hi.current,
      by rw [this]; exact hi.good, by rw [this]; exact hi.silent⟩
  | @connect p hp =>
    have hn : notes (h ++ [.connect p]) = { (notes h) with
        made := (notes h).made + 1
        current := fun q => if q = p then some (notes h).made else (notes h).current q } := by
      rw [notes_snoc, Notes.note, if_pos (by rw [← hi.table]; exact hp)]
    refine ⟨?_, fun q => ?_, fun q i hq => ?_, fun i c hc => ?_, fun i hl => ?_⟩
    · rw [hn]; simp [hi.made]
    · rw [hn, Map.get?_insert]
      simp only [hi.made, hi.table]
    · rw [hn] at hq
      simp only at hq
      split at hq
      · next hqp =>
        cases hq
        exact ⟨⟨p, .handshake, [], false, false, []⟩, by simp [hi.made], hqp.symm, rfl⟩
      · obtain ⟨c, h1, h2, h3⟩ := hi.current q i hq
        exact ⟨c, by rw [List.getElem?_append_left (lt_of_get h1)]; exact h1, h2, h3⟩
    · rw [hn]
      by_cases hl : i < s.conns.length
      · rw [List.getElem?_append_left hl] at hc
        exact hi.good i c hc
      · have hl' := hi.silent i (by omega)
        simp only
        rw [hl']
        rw [List.getElem?_append_right (by omega)] at hc
        cases hk : i - s.conns.length with
        | zero =>
          rw [hk] at hc
          cases hc
          exact fun _ => ⟨List.nil_prefix, fun _ _ => ⟨[], rfl, rfl⟩, fun _ => ⟨[], rfl⟩⟩
        | succ k => rw [hk] at hc; simp at hc
    · rw [hn]
      refine hi.silent i ?_
      simp only [List.length_append, List.length_cons, List.length_nil] at hl
      omega
  | @unknown p hp =>
    have hn : (notes (h ++ [.disconnect p])).current = (notes h).current := by
      rw [notes_snoc, Notes.note]
      funext q
      simp only
      split
      · next hq => subst hq; rw [← hi.table, hp]
      · rfl
    exact ⟨by rw [notes_snoc]; exact hi.made, by rw [hn]; exact hi.table, by rw [hn]; exact hi.current,
      by rw [notes_snoc]; exact hi.good, by rw [notes_snoc]; exact hi.silent⟩
  | @disconnect p i c hp hc =>
    have hn : ∀ q, (notes (h ++ [.disconnect p])).current q = if q = p then none else (notes h).current q := by
      intro q; rw [notes_snoc, Notes.note]
    refine ⟨?_, fun q => ?_, fun q j hq => ?_, fun j c' hj => ?_, fun j hl => ?_⟩
    · rw [notes_snoc]; simp [State.set, Notes.note, hi.made]
    · rw [hn, Map.get?_erase, hi.table]
    · rw [hn] at hq
      split at hq
      · cases hq
      · next hqp =>
        obtain ⟨c', h1, h2, h3⟩ := hi.current q j hq
        refine ⟨c', ?_, h2, h3⟩
        have hij : i ≠ j := by
          rintro rfl
          obtain ⟨c2, k1, k2, _⟩ := hi.current p i (by rw [← hi.table]; exact hp)
          rw [h1] at k1
          cases k1
          exact hqp (h2.symm.trans k2)
        simp [State.set, hij, h1]
    · rw [notes_snoc]
      rcases set_get hc hj with ⟨rfl, rfl⟩ | ⟨_, h2⟩
      · exact hi.good j c hc
      · exact hi.good _ _ h2
    · rw [notes_snoc]
      exact hi.silent j (by simpa [State.set] using hl)
  | @refused p m hp =>
    have : notes (h ++ [.call p m false]) = notes h := by rw [notes_snoc]; rfl
    exact ⟨by rw [this]; exact hi.made, by rw [this]; exact hi.table, by rw [this]; exact hi.current,
      by rw [this]; exact hi.good, by rw [this]; exact hi.silent⟩
  | @lost p m i c hp hc _ =>
    have : notes (h ++ [.call p m false]) = notes h := by rw [notes_snoc]; rfl
    exact ⟨by rw [this]; exact hi.made, by rw [this]; exact hi.table, by rw [this]; exact hi.current,
      by rw [this]; exact hi.good, by rw [this]; exact hi.silent⟩
  | @put p m i c hp hc hph _ =>
    have hn : notes (h ++ [.call p m true]) = (notes h).say i (meaning m) := by
      rw [notes_snoc, Notes.note, ← hi.table, hp]
    refine hi.upd hc rfl rfl (by rw [hn]; rfl) (by rw [hn]; rfl) (fun j hj => by simp [hn, Notes.say, hj]) ?_
    rw [hn, message_eq]
    simp only [Notes.say, if_true]
    exact (hi.good i c hc).more hph _
  | @asks i c r hc hph _ =>
    have hn : notes (h ++ [.asks i r]) = (notes h).say i (.request r) := by rw [notes_snoc]; rfl
    refine hi.upd hc rfl rfl (by rw [hn]; rfl) (by rw [hn]; rfl) (fun j hj => by simp [hn, Notes.say, hj]) ?_
    rw [hn]
    simp only [Notes.say, if_true]
    exact (hi.good i c hc).more hph _
  | @shakes i c hc hph =>
    have hn : notes (h ++ [.shakes i]) = notes h := by rw [notes_snoc]; rfl
    refine hi.upd hc rfl rfl (by rw [hn]) (by rw [hn]) (fun j hj => by rw [hn]) ?_
    rw [hn]
    intro hf
    obtain ⟨h1, h2, h3⟩ := hi.good i c hc hf
    exact ⟨h1, fun _ hb => h2 (by rw [hph]; simp) hb, fun _ => h3 (by rw [hph]; simp)⟩
  | @writes i c m rest bytes hc hph hb hq hm =>
    have hn : notes (h ++ [.writes i]) = notes h := by rw [notes_snoc]; rfl
    refine hi.upd hc rfl rfl (by rw [hn]) (by rw [hn]) (fun j hj => by rw [hn]) ?_
    rw [hn]
    intro hf
    obtain ⟨h1, h2, h3⟩ := hi.good i c hc hf
    obtain ⟨done, h4, h5⟩ := h2 (by rw [hph]; simp) hb
    rw [hq] at h4
    rw [intoBytes_eq m (hf m (by rw [h4]; simp))] at hm
    cases hm
    have ho : c.out ++ wire m = wireAll (done ++ [m]) := by rw [wireAll_append, wireAll_cons, h5]; simp [wireAll]
    refine ⟨?_, fun _ _ => ⟨done ++ [m], by rw [h4]; simp, ho⟩, fun _ => ⟨done ++ [m], by rw [h4]; simp⟩⟩
    show c.out ++ wire m <+: _
    rw [ho, h4, show done ++ m :: rest = (done ++ [m]) ++ rest by simp]
    exact prefix_more (List.prefix_refl _)
  | @fails i c m rest bytes n hc hph hq hm hlt =>
    have hn : notes (h ++ [.fails i]) = notes h := by rw [notes_snoc]; rfl
    refine hi.upd hc rfl rfl (by rw [hn]) (by rw [hn]) (fun j hj => by rw [hn]) ?_
    rw [hn]
    intro hf
    obtain ⟨h1, h2, h3⟩ := hi.good i c hc hf
    refine ⟨?_, fun _ hb => by simp at hb, fun _ => ?_⟩
    · show (if c.broken then c.out else c.out ++ bytes.take n) <+: _
      split
      · exact h1
      · next hb =>
        obtain ⟨done, h4, h5⟩ := h2 (by rw [hph]; simp) (by simpa using hb)
        rw [hq] at h4
        rw [intoBytes_eq m (hf m (by rw [h4]; simp))] at hm
        cases hm
        rw [h4, h5, wireAll_append, wireAll_cons]
        exact (List.prefix_append_right_inj _).mpr ((List.take_prefix _ _).trans (List.prefix_append _ _))
    · obtain ⟨done, h4⟩ := h3 (by rw [hph]; simp)
      rw [hq] at h4
      exact ⟨done ++ [m], by rw [h4]; simp⟩
  | @ends i c part hc hph hpart =>
    have hn : notes (h ++ [.ends i]) = notes h := by rw [notes_snoc]; rfl
    refine hi.upd hc rfl rfl (by rw [hn]) (by rw [hn]) (fun j hj => by rw [hn]) ?_
    rw [hn]
    intro hf
    obtain ⟨h1, h2, h3⟩ := hi.good i c hc hf
    refine ⟨?_, fun hp => absurd rfl hp, fun hp => absurd rfl hp⟩
    show c.out ++ part <+: _
    rcases hpart with rfl | ⟨_, hb, m, rest, bytes, hq, hm, hpre⟩
    · simpa using h1
    · obtain ⟨done, h4, h5⟩ := h2 hph hb
      rw [hq] at h4
      rw [intoBytes_eq m (hf m (by rw [h4]; simp))] at hm
      cases hm
      rw [h4, h5, wireAll_append, wireAll_cons]
      exact (List.prefix_append_right_inj _).mpr (hpre.trans (List.prefix_append _ _))

theorem Sound.run (hr : Run State.new h s) : Sound h s := by
  generalize h0 : State.new = s0 at hr
  induction hr with
  | nil => subst h0; exact Sound.new
  | snoc _ hs ih => exact ih.step hs

/-! ## C141 -/

/-- C141: in every history of calls and of the tasks of all connections, the bytes written to a connection are a prefix of
the messages said over it, in order and each once, in the format of BEP 3: nothing else is ever written, and nothing is
left out in between. While the connection lasts and no write has failed, exactly the messages that do not wait in the
queue are written. -/
theorem C141_in_order (hr : Run State.new h s) (i : Nat) (c : Conn) (hc : s.conns[i]? = some c)
    (hf : ∀ m ∈ (notes h).said i, Fits m) :
    c.out <+: wireAll ((notes h).said i) ∧
    (c.phase ≠ .ended → c.broken = false → ∃ done, (notes h).said i = done ++ c.sends ∧ c.out = wireAll done) :=
  let g := (Sound.run hr).good i c hc hf
  ⟨g.1, g.2.1⟩

/-- C141, continued: the connection on which a call puts its message is one to the peer that was named, and one that was
not told to end. The call reports success exactly when there is one and its task has not ended. -/
theorem C141_right_peer (hr : Run State.new h s) (p : Peer) :
    (∀ i, (notes h).current p = some i → ∃ c, s.conns[i]? = some c ∧ c.peer = p ∧ c.told = false) ∧
    ∀ m ok s', Step s (.call p m ok) s' →
      (ok = true ↔ ∃ i c, (notes h).current p = some i ∧ s.conns[i]? = some c ∧ c.phase ≠ .ended) := by
  have hi := Sound.run hr
  refine ⟨fun i => hi.current p i, fun m ok s' hs => ?_⟩
  cases hs with
  | refused hp =>
    rw [hi.table] at hp
    simp [hp]
  | lost hp hc he =>
    rename_i i c
    rw [hi.table] at hp
    refine ⟨fun h => (by cases h), fun ⟨j, d, h1, h2, h3⟩ => ?_⟩
    rw [hp] at h1
    cases h1
    rw [hc] at h2
    cases h2
    exact absurd he h3
  | put hp hc he =>
    rename_i i c _
    rw [hi.table] at hp
    exact ⟨fun _ => ⟨i, c, hp, hc, he⟩, fun _ => rfl⟩

/-- C141, end to end: when everything in the queue of a connection has been written, another client of this kind at the
other end handles exactly the messages that were said, however the stream is cut into pieces on the way. -/
theorem C141_received (hr : Run State.new h s) (i : Nat) (c : Conn) (hc : s.conns[i]? = some c) (hp : c.phase ≠ .ended)
    (hb : c.broken = false) (hq : c.sends = [])
    (hw : ∀ m ∈ (notes h).said i, (wire m).length ≤ MAX_MESSAGE_BYTES) (sched : List Nat) (hpos : ∀ n ∈ sched, 1 ≤ n)
    (hlen : c.out.length ≤ sched.length) :
    ∃ r, RecvState.init.run c.out sched = .ok (r, [], (notes h).said i) := by
  obtain ⟨done, h1, h2⟩ := (C141_in_order hr i c hc (fun m hm => fits_of_wire (hw m hm))).2 hp hb
  rw [hq, List.append_nil] at h1
  subst h1
  rw [h2] at hlen ⊢
  obtain ⟨k, r, rest, k1, _, _, k4, k5⟩ := C14_framing _ hw sched
  have hrest := k5 hpos hlen
  rw [k4 hrest, hrest] at k1
  exact ⟨r, k1⟩

/-- C141: a connection that was told to end can end at once, unless it is still in the handshake; after `disconnect` no call
puts anything on it. -/
theorem C141_disconnect (hr : Run State.new h s) (i : Nat) (c : Conn) (hc : s.conns[i]? = some c) (ht : c.told = true) :
    (∀ p, (notes h).current p ≠ some i) ∧ (c.phase = .up → ∃ s', Step s (.ends i) s') := by
  refine ⟨fun p hp => ?_, fun hu => ⟨_, .ends hc (by rw [hu]; simp) (.inl rfl)⟩⟩
  obtain ⟨d, h1, _, h3⟩ := (Sound.run hr).current p i hp
  rw [hc] at h1
  cases h1
  rw [ht] at h3
  cases h3

/-! ## C142 -/

/-- A broken connection takes no more bytes. -/
theorem broken_stays {i : Nat} {c : Conn} (hr : Run s h s') (hc : s.conns[i]? = some c) (hb : c.broken = true) :
    ∃ c', s'.conns[i]? = some c' ∧ c'.broken = true ∧ c'.out = c.out := by
  induction hr with
  | nil => exact ⟨c, hc, hb, rfl⟩
  | @snoc s1 s2 h e _ hs ih =>
    obtain ⟨c1, h1, h2, h3⟩ := ih
    have other : ∀ {j : Nat} {d d' : Conn}, s1.conns[j]? = some d → (j = i → d'.broken = true ∧ d'.out = d.out) →
        ∃ c', (s1.set j d').conns[i]? = some c' ∧ c'.broken = true ∧ c'.out = c.out := by
      intro j d d' hd hd'
      by_cases hij : j = i
      · subst hij
        rw [h1] at hd
        cases hd
        exact ⟨d', by simp [State.set, lt_of_get h1], (hd' rfl).1, (hd' rfl).2.trans h3⟩
      · exact ⟨c1, by simp [State.set, hij, h1], h2, h3⟩
    have same : ∀ {j : Nat} {d : Conn}, s1.conns[j]? = some d → j = i → d.broken = true := by
      rintro j d hd rfl
      rw [h1] at hd
      cases hd
      exact h2
    cases hs with
    | again => exact ⟨c1, h1, h2, h3⟩
    | connect => exact ⟨c1, by rw [List.getElem?_append_left (lt_of_get h1)]; exact h1, h2, h3⟩
    | unknown => exact ⟨c1, h1, h2, h3⟩
    | disconnect _ hd => exact other hd fun hj => ⟨by have := same hd hj; exact this, rfl⟩
    | refused => exact ⟨c1, h1, h2, h3⟩
    | lost => exact ⟨c1, h1, h2, h3⟩
    | put _ hd => exact other hd fun hj => ⟨by have := same hd hj; exact this, rfl⟩
    | asks hd => exact other hd fun hj => ⟨by have := same hd hj; exact this, rfl⟩
    | shakes hd => exact other hd fun hj => ⟨by have := same hd hj; exact this, rfl⟩
    | writes hd _ hb' => exact other hd fun hj => by rw [same hd hj] at hb'; cases hb'
    | fails hd => exact other hd fun hj => ⟨rfl, by simp [same hd hj]⟩
    | ends hd _ hpart =>
      refine other hd fun hj => ⟨by have := same hd hj; exact this, ?_⟩
      rcases hpart with rfl | ⟨_, hb', _⟩
      · simp
      · rw [same hd hj] at hb'; cases hb'

/-- C142 is violated: when a write to a peer has failed, the error is only logged. The connection stays in the table and
its task goes on, so whenever there is room in the queue further calls report success, although in no continuation any
byte is written to that connection. -/
theorem C142_broken_violated (hr : Run State.new h s) (p : Peer) (i : Nat) (c : Conn)
    (hp : (notes h).current p = some i) (hc : s.conns[i]? = some c) (hu : c.phase = .up) (hb : c.broken = true)
    (hroom : c.sends.length < 32) (m : Call) :
    ∃ s1, Step s (.call p m true) s1 ∧
      ∀ h' s2, Run s1 h' s2 → ∃ c2, s2.conns[i]? = some c2 ∧ c2.out = c.out := by
  refine ⟨_, .put (by rw [(Sound.run hr).table]; exact hp) hc (by rw [hu]; simp) hroom, fun h' s2 h2 => ?_⟩
  obtain ⟨c2, k1, _, k3⟩ := broken_stays (i := i) (c := { c with sends := c.sends ++ [m.message] }) h2
    (by simp [State.set, lt_of_get hc]) hb
  exact ⟨c2, k1, k3⟩

/-- C142, the part that holds: as long as the connection to the peer lasts and no write to it has failed, everything that
waits in its queue can be written without any other event, and then everything that was said over it is written. Missing:
the same when a write has failed (false, `C142_broken_violated`), and when the connection ends first. -/
theorem C142_written_partial (hr : Run State.new h s) (i : Nat) (c : Conn) (hc : s.conns[i]? = some c)
    (hu : c.phase = .up) (hb : c.broken = false) (hf : ∀ m ∈ (notes h).said i, Fits m) :
    ∃ s', Run s (List.replicate c.sends.length (.writes i)) s' ∧
      ∃ c', s'.conns[i]? = some c' ∧ c'.sends = [] ∧ c'.out = wireAll ((notes h).said i) := by
  have hsplit := (C141_in_order hr i c hc hf).2 (by rw [hu]; simp) hb
  obtain ⟨done, h1, h2⟩ := hsplit
  rw [h1] at hf ⊢
  clear h1 hr
  generalize hq : c.sends = q at hf
  induction q generalizing s c done with
  | nil => exact ⟨s, .nil, c, hc, hq, by rw [h2]; simp⟩
  | cons m q ih =>
    have hm := intoBytes_eq m (hf m (by simp))
    have hstep : Step s (.writes i) (s.set i { c with sends := q, out := c.out ++ wire m }) := .writes hc hu hb hq hm
    obtain ⟨s', k1, c', k2, k3, k4⟩ := ih (s := s.set i { c with sends := q, out := c.out ++ wire m })
      { c with sends := q, out := c.out ++ wire m }
      (by simp [State.set, lt_of_get hc]) hu hb (done ++ [m])
      (by rw [h2, wireAll_append, wireAll_cons]; simp [wireAll]) rfl (by simpa using hf)
    refine ⟨s', ?_, c', k2, k3, by rw [k4]; simp⟩
    have pre : ∀ {a b : State} {l : List Event} {x : Event} {a0 : State}, Step a0 x a → Run a l b → Run a0 (x :: l) b := by
      intro a b l x a0 hx hl
      induction hl with
      | nil => exact .snoc (h := []) .nil hx
      | snoc _ hs ih => exact .snoc (h := _ :: _) ih hs
    rw [List.length_cons, List.replicate_succ]
    exact pre hstep k1

/-! ## The keep-alive task -/

/-- C143, what is there: if the keep-alive task were spawned, it would send a keep-alive message every 100 seconds: never
more, and as many as there were periods unless it waits for room in the queue, has a tick to make up for, or has ended.
Missing: the program does not spawn it (`C143_nothing_told_violated`). -/
theorem C143_keep_alive_partial {h : List AliveEvent} {s : Alive} (hr : AliveRun Alive.start h s) :
    keepAlives h * 100 ≤ s.now ∧
    (s.ended = false → s.sending = false → s.now < s.next → keepAlives h = s.now / 100) := by
  suffices hk : keepAlives h * 100 ≤ s.now ∧ (s.next = (keepAlives h + 1 + (if s.sending then 1 else 0)) * 100 ∨ s.ended = true) ∧
      (s.ended = false → s.next ≤ s.now + 100) ∧ (s.ended = false → s.sending = true → (keepAlives h + 1) * 100 ≤ s.now) by
    obtain ⟨h1, h2, h3, _⟩ := hk
    refine ⟨h1, fun he hs hlt => ?_⟩
    rw [hs, he] at h2
    simp at h2
    have := h3 he
    omega
  generalize h0 : Alive.start = s0 at hr
  induction hr with
  | nil => subst h0; simp [Alive.start, keepAlives, KEEP_ALIVE_INTERVAL_SECS]
  | @snoc s1 s2 h e _ hs ih =>
    obtain ⟨h1, h2, h3, h4⟩ := ih
    cases hs with
    | pass =>
      simp only [keepAlives, List.count_append, List.count_cons, List.count_nil] at *
      refine ⟨by simp; omega, by simpa using h2, fun he => by have := h3 he; simp; omega, fun he hse => ?_⟩
      have := h4 he hse
      simp
      omega
    | tick he hns hd =>
      rw [hns, he] at h2
      simp only [keepAlives, List.count_append, List.count_cons, List.count_nil, KEEP_ALIVE_INTERVAL_SECS] at *
      simp at h2 ⊢
      refine ⟨by omega, .inl (by omega), fun _ => by omega, fun _ => by omega⟩
    | sent he hse =>
      rw [hse, he] at h2
      have h3' := h3 he
      have h4' := h4 he hse
      simp only [keepAlives, List.count_append, List.count_cons, List.count_nil] at *
      simp at h2 ⊢
      refine ⟨by omega, .inl (by omega), fun _ => by omega⟩
    | gone he hse =>
      simp only [keepAlives, List.count_append, List.count_cons, List.count_nil] at *
      simp at h2 ⊢
      omega

/-- Four minutes of the task. -/
example : ∃ s, AliveRun Alive.start [.pass 100, .tick, .sent, .pass 140, .tick, .sent] s ∧
    keepAlives [.pass 100, .tick, .sent, .pass 140, .tick, .sent] = 2 ∧ s = ⟨240, 300, false, false⟩ := by
  refine ⟨_, ?_, by decide, rfl⟩
  exact .snoc (h := [.pass 100, .tick, .sent, .pass 140, .tick]) (.snoc (h := [.pass 100, .tick, .sent, .pass 140])
    (.snoc (h := [.pass 100, .tick, .sent]) (.snoc (h := [.pass 100, .tick]) (.snoc (h := [.pass 100]) (.snoc (h := [])
      .nil .pass) (.tick rfl rfl (by decide))) (.sent rfl rfl)) .pass) (.tick rfl rfl (by decide))) (.sent rfl rfl)

/-! ## Examples -/

/-- A peer. -/
def examplePeer : Peer := ⟨⟨⟨10#8, 0#8, 0#8, 1#8⟩, 6881#16⟩⟩

/-- The client connects to a peer, is interested, a block is requested, the peer is told of a piece; the first message is
written. -/
def talks : List Event := [.connect examplePeer, .shakes 0, .call examplePeer (.interested true) true,
  .asks 0 ⟨1#32, 0#32, 16384#32⟩, .writes 0, .call examplePeer (.have_ 5#32) true]

/-- The state after this history. -/
def talked : State := ⟨[(examplePeer, 0)],
  [⟨examplePeer, .up, [.request ⟨1#32, 0#32, 16384#32⟩, .have_ 5#32], false, false, [0#8, 0#8, 0#8, 1#8, 2#8]⟩]⟩

theorem talks_run : Run State.new talks talked := by
  have h1 : Run State.new [.connect examplePeer] _ := .snoc (h := []) .nil (.connect rfl)
  have h2 := Run.snoc h1 (.shakes (i := 0) rfl rfl)
  have h3 := Run.snoc h2 (.put (p := examplePeer) (m := .interested true) (i := 0)
    (c := ⟨examplePeer, .up, [], false, false, []⟩) rfl rfl (by decide) (by decide))
  have h4 := Run.snoc h3 (.asks (i := 0) (r := ⟨1#32, 0#32, 16384#32⟩)
    (c := ⟨examplePeer, .up, [.interested], false, false, []⟩) rfl (by decide) (by decide))
  have h5 := Run.snoc h4 (.writes (i := 0) rfl rfl rfl rfl rfl)
  exact Run.snoc h5 (.put (p := examplePeer) (m := .have_ 5#32) (i := 0)
    (c := ⟨examplePeer, .up, [.request ⟨1#32, 0#32, 16384#32⟩], false, false, [0#8, 0#8, 0#8, 1#8, 2#8]⟩)
    rfl rfl (by decide) (by decide))

/-- The hypotheses of `C141_in_order` and `C142_written_partial` are met: three messages were said, two of them wait. -/
example : ∃ c, talked.conns[0]? = some c ∧ c.phase = .up ∧ c.broken = false ∧ c.sends.length = 2 ∧
    (notes talks).said 0 = [.interested, .request ⟨1#32, 0#32, 16384#32⟩, .have_ 5#32] ∧
    (notes talks).current examplePeer = some 0 ∧
    (∀ m ∈ (notes talks).said 0, Fits m ∧ (wire m).length ≤ MAX_MESSAGE_BYTES) := by
  refine ⟨_, rfl, rfl, rfl, rfl, by decide, by decide, ?_⟩
  have : (notes talks).said 0 = [.interested, .request ⟨1#32, 0#32, 16384#32⟩, .have_ 5#32] := by decide
  rw [this]
  intro m hm
  simp only [List.mem_cons, List.not_mem_nil, or_false] at hm
  rcases hm with rfl | rfl | rfl <;> exact ⟨by simp [Fits, payload, beBytes_length], by
    rw [wire_length]; simp [payload, beBytes_length]; decide⟩

/-- The hypotheses of `C142_broken_violated` are met: the next write fails. -/
example : ∃ s c, Run State.new (talks ++ [.fails 0]) s ∧ s.conns[0]? = some c ∧ c.phase = .up ∧ c.broken = true ∧
    c.sends.length < 32 ∧ (notes (talks ++ [.fails 0])).current examplePeer = some 0 :=
  ⟨_, _, .snoc talks_run (.fails (i := 0) (n := 3) rfl rfl rfl rfl (by decide)), rfl, rfl, rfl, by decide, by decide⟩

/-- The hypotheses of `C141_disconnect` are met. -/
example : ∃ s c, Run State.new (talks ++ [.disconnect examplePeer]) s ∧ s.conns[0]? = some c ∧ c.told = true ∧ c.phase = .up :=
  ⟨_, _, .snoc talks_run (.disconnect (p := examplePeer) (i := 0) rfl rfl), rfl, rfl, rfl⟩

end Nargun.Handle
