import Verif.Props.Launch
import Verif.Spec.Gateway

/-! # The forwarded ports: C134, C135 -/

namespace Nargun.Gateway

open Nargun Dht Krpc Spec Program

variable {sha1 : Bytes → ID} {utf8 : Bytes → Bool} {w w' : World} {m : Machine} {c : Chance} {a : Around} {t t' t1 : Table}
  {tree : Tree} {s0 s : State} {es : List Program.Event} {r : Res State}

/-- The text of the mapping for peers. -/
def TCP_TEXT : Bytes := Spec.ascii "TCP for peer protocol"

/-- The text of the mapping for the DHT. -/
def UDP_TEXT : Bytes := Spec.ascii "UDP for DHT"

/-- What a successful `open_any_port` went through. -/
theorem open_ok {p q : U16} (h : openAnyPort a t = (t', .ok (p, q))) :
    ∃ ip, a.localIp = .v4 ip ∧ a.found = true ∧ a.tcp = .opened p ∧ a.udp = .opened q ∧
      t' = (t.insert (.tcp, p) ⟨⟨ip, LOCAL_PORT_TCP⟩, 0, TCP_TEXT⟩).insert (.udp, q) ⟨⟨ip, LOCAL_PORT_UDP⟩, 0, UDP_TEXT⟩ := by
  unfold openAnyPort at h
  cases hip : a.localIp with
  | v6 => simp only [hip] at h; cases h
  | unknown => simp only [hip] at h; cases h
  | v4 ip =>
    simp only [hip] at h
    cases hf : a.found with
    | false => simp only [hf] at h; cases h
    | true =>
      simp only [hf, if_true] at h
      cases h1 : a.tcp with
      | refused => simp only [h1, addAnyPort] at h; cases h
      | opened p' =>
        cases h2 : a.udp with
        | refused => simp only [h1, h2, addAnyPort] at h; cases h
        | opened q' =>
          simp only [h1, h2, addAnyPort] at h
          cases h
          exact ⟨ip, rfl, rfl, rfl, rfl, rfl⟩

/-- What `open_any_port` does to the gateway, in all cases. -/
theorem open_table : (openAnyPort a t).1 = t ∨ ∃ ip p, a.localIp = .v4 ip ∧ a.tcp = .opened p ∧
    ((openAnyPort a t).1 = t.insert (.tcp, p) ⟨⟨ip, LOCAL_PORT_TCP⟩, 0, TCP_TEXT⟩ ∨
      ∃ q, a.udp = .opened q ∧ (openAnyPort a t).1 =
        (t.insert (.tcp, p) ⟨⟨ip, LOCAL_PORT_TCP⟩, 0, TCP_TEXT⟩).insert (.udp, q) ⟨⟨ip, LOCAL_PORT_UDP⟩, 0, UDP_TEXT⟩) := by
  unfold openAnyPort
  cases hip : a.localIp with
  | v6 => exact .inl rfl
  | unknown => exact .inl rfl
  | v4 ip =>
    cases hf : a.found with
    | false => exact .inl rfl
    | true =>
      cases h1 : a.tcp with
      | refused => exact .inl rfl
      | opened p =>
        refine .inr ⟨ip, p, rfl, rfl, ?_⟩
        cases h2 : a.udp with
        | refused => exact .inl rfl
        | opened q => exact .inr ⟨q, rfl, rfl⟩

/-- The gateway after a start: as before, if the torrent file was not accepted, or as `open_any_port` leaves it. -/
theorem launch_table (h : launchBehind sha1 utf8 w m c a t = (t', w', tree, r)) : t' = t ∨ t' = (openAnyPort a t).1 := by
  unfold launchBehind at h
  split at h
  · split at h
    · next ho => exact .inr (by rw [ho]; exact (congrArg Prod.fst h).symm)
    · next ho => exact .inr (by rw [ho]; exact (congrArg Prod.fst h).symm)
  · exact .inl (congrArg Prod.fst h).symm

/-- A start after which the program runs has opened the ports. -/
theorem launch_ran (h : launchBehind sha1 utf8 w m c a t = (t', w', tree, .ok s0)) :
    ∃ q, openAnyPort a t = (t', .ok (w'.port, q)) ∧
      launch sha1 utf8 w' { m with gateway := true } c = (tree, .ok s0) := by
  unfold launchBehind at h
  split at h
  · next x hx =>
    split at h
    · next t2 ports ho =>
      cases ports
      simp only [Prod.mk.injEq] at h
      obtain ⟨rfl, rfl, h⟩ := h
      exact ⟨_, ho, h⟩
    · have hl : launch sha1 utf8 w { m with gateway := false } c = (tree, .ok s0) := by
        have := congrArg (fun x => x.2.2) h
        exact this
      obtain ⟨_, _, _, _, _, hg, _⟩ := launch_ok hl
      cases hg
  · next hx =>
    have hl : launch sha1 utf8 w m c = (tree, .ok s0) := congrArg (fun x => x.2.2) h
    obtain ⟨buf, t, _, h1, h2, _⟩ := launch_ok hl
    exfalso
    apply hx t
    unfold readTorrent
    simp only [h1, h2]

/-! ## C134 -/

/-- The announces of a tracker task all carry this port. -/
structure PortInv (p : U16) (x : TrackerTask) : Prop where
  announce : x.announce.port = p
  sent : ∀ b ∈ sentAnnounces x.log, b.port = p

theorem PortInv.step {p : U16} {x x' : TrackerTask} {i : TrackerInput} (h : PortInv p x) (hs : x.step i = .ok x') :
    PortInv p x' := by
  have h2 := h.sent
  have again : ∀ {y : TrackerTask} {ev : Option AnnounceEvent} {n : Nat}, PortInv p y → y.again ev n = .ok x' →
      PortInv p x' := by
    intro y ev n hy ha
    simp only [TrackerTask.again] at ha
    obtain ⟨left, _, ha⟩ := Res.bind_eq_ok.mp ha
    cases ha
    exact ⟨hy.announce, fun b hb => hy.sent b (by simpa [sentAnnounces] using hb)⟩
  unfold TrackerTask.step at hs
  split at hs
  · cases hs
    refine ⟨h.announce, fun b hb => ?_⟩
    have : b ∈ sentAnnounces x.log ∨ b = x.announce := by simpa [sentAnnounces] using hb
    rcases this with hb | rfl
    · exact h2 b hb
    · exact h.announce
  · cases hs; exact ⟨h.announce, fun b hb => h2 b (by simpa [sentAnnounces] using hb)⟩
  · cases hs; exact ⟨h.announce, h2⟩
  · cases hs
    refine ⟨?_, fun b hb => h2 b (by simpa [sentAnnounces] using hb)⟩
    simp only
    split <;> exact h.announce
  · cases hs; exact ⟨h.announce, fun b hb => h2 b (by simpa [sentAnnounces] using hb)⟩
  · cases hs; exact ⟨h.announce, h2⟩
  · cases hs; exact ⟨h.announce, fun b hb => h2 b (by simpa [sentAnnounces] using hb)⟩
  · cases hs; exact ⟨h.announce, h2⟩
  · obtain ⟨left, _, hs⟩ := Res.bind_eq_ok.mp hs
    cases hs
    refine ⟨h.announce, fun b hb => ?_⟩
    have : b ∈ sentAnnounces x.log ∨ b = { x.announce with event := some .stopped, left := left } := by
      simpa [sentAnnounces] using hb
    rcases this with hb | rfl
    · exact h2 b hb
    · exact h.announce
  · exact again (y := { x with log := x.log ++ [.slept _] })
      ⟨h.announce, fun b hb => h2 b (by simpa [sentAnnounces] using hb)⟩ hs
  · exact again h hs
  · cases hs; exact ⟨h.announce, h2⟩
  · cases hs; exact h

theorem PortInv.run {p : U16} {l : List TrackerInput} : ∀ {x x' : TrackerTask}, PortInv p x → x.run l = .ok x' →
    PortInv p x' := by
  induction l with
  | nil => intro x x' h hr; cases hr; exact h
  | cons i l ih =>
    intro x x' h hr
    simp only [TrackerTask.run] at hr
    obtain ⟨x1, h1, h2⟩ := Res.bind_eq_ok.mp hr
    exact ih (h.step h1) h2

theorem startTracker_port (w : World) (u : Setup) (url : Bytes) : PortInv w.port (startTracker w u url) := by
  unfold startTracker
  split
  · next x hx =>
    simp only [TrackerTask.start] at hx
    obtain ⟨left, _, hx⟩ := Res.bind_eq_ok.mp hx
    cases hx
    exact ⟨rfl, by simp [sentAnnounces]⟩
  · exact ⟨rfl, by simp [sentAnnounces]⟩

/-- C134: however the program was started, and whatever happens: the port that is announced, to whichever tracker or to
whichever node of the DHT, is one that the gateway forwards to the port 46492 of this machine, and the mapping does not
expire. -/
theorem C134_forwarded (sha1 : Bytes → ID) (utf8 : Bytes → Bool) (w w' : World) (m : Machine) (c : Chance) (a : Around)
    (t t' : Table) (tree : Tree) (s0 s : State) (es : List Program.Event)
    (hl : launchBehind sha1 utf8 w m c a t = (t', w', tree, .ok s0)) (hr : Program.Run w' s0 es s) :
    ∃ ip, a.localIp = .v4 ip ∧
      (∀ (i : Nat) (x : TrackerTask), s.trackers[i]? = some x → ∀ b ∈ sentAnnounces x.log, LeadsHere t' ip b.port) ∧
      (∀ target ih p token, .asks target (.announcePeer ih p token) ∈ es → LeadsHere t' ip p) := by
  obtain ⟨q, ho, hl⟩ := launch_ran hl
  obtain ⟨ip, hip, _, _, _, ht⟩ := open_ok ho
  obtain ⟨_, tor, table, _, _, _, _, rfl, _⟩ := launch_ok hl
  have key : LeadsHere t' ip w'.port := by
    refine ⟨TCP_TEXT, ?_⟩
    rw [ht, Map.get?_insert, if_neg (by simp), Map.get?_insert, if_pos rfl]
    rfl
  refine ⟨ip, hip, fun i x hx b hb => ?_, fun target ih p token hx => ?_⟩
  · obtain ⟨x0, hx0, hrun⟩ := run_tracker hr hx
    have h0 : PortInv w'.port x0 := by
      simp only [launched, List.getElem?_map] at hx0
      obtain ⟨url, _, rfl⟩ := Option.map_eq_some_iff.mp hx0
      exact startTracker_port _ _ _
    rw [(h0.run hrun).sent b hb]
    exact key
  · have hm : (target, ToConQuery.announcePeer ih p token) ∈ lookupAsked es := List.mem_filterMap.mpr ⟨_, hx, rfl⟩
    rcases run_lookup (s0 := launched w' _ c tor table) rfl hr with ⟨_, _, h3⟩ | ⟨l, ns, hist, _, hi⟩
    · rw [h3] at hm; simp at hm
    · obtain ⟨es1, now, es2, s1, _, _, j3⟩ := hi.origin
      rcases lookup_asks j3 (x := (target, .announcePeer ih p token)) (hi.asked.subset hm) with h | ⟨tok, h⟩
      · cases h
      · cases h; exact key

/-! ## C135 -/

/-- A mapping of this program. -/
def Ours (ip : Ipv4) (k : Proto × U16) (x : Mapping) : Prop :=
  (k.1 = .tcp ∧ x = ⟨⟨ip, 46492#16⟩, 0, TCP_TEXT⟩) ∨ (k.1 = .udp ∧ x = ⟨⟨ip, 46493#16⟩, 0, UDP_TEXT⟩)

/-- What a start does to every port: nothing, or it is forwarded to this program, and was not forwarded elsewhere. -/
theorem start_port {ip : Ipv4} (hip : a.localIp = .v4 ip) (hk : Around.Keeps a t ip)
    (h : launchBehind sha1 utf8 w m c a t = (t', w', tree, r)) (k : Proto × U16) :
    t'.get? k = t.get? k ∨ ∃ x, t'.get? k = some x ∧ Ours ip k x ∧
      ∀ y, t.get? k = some y → y.internal = ⟨ip, 46492#16⟩ ∨ y.internal = ⟨ip, 46493#16⟩ := by
  rcases launch_table h with rfl | rfl
  · exact .inl rfl
  · rcases open_table (a := a) (t := t) with he | ⟨ip', p, hi', h1, h2⟩
    · rw [he]; exact .inl rfl
    · rw [hip] at hi'
      cases hi'
      have hk1 := hk.1
      rw [h1] at hk1
      rcases h2 with he | ⟨q, hq, he⟩
      · rw [he, Map.get?_insert]
        by_cases hkp : k = (.tcp, p)
        · rw [if_pos hkp]
          subst hkp
          exact .inr ⟨_, rfl, .inl ⟨rfl, rfl⟩, fun y hy => .inl (hk1 y hy)⟩
        · rw [if_neg hkp]; exact .inl rfl
      · have hk2 := hk.2
        rw [hq] at hk2
        rw [he, Map.get?_insert]
        by_cases hkq : k = (.udp, q)
        · rw [if_pos hkq]
          subst hkq
          exact .inr ⟨_, rfl, .inr ⟨rfl, rfl⟩, fun y hy => .inr (hk2 y hy)⟩
        · rw [if_neg hkq, Map.get?_insert]
          by_cases hkp : k = (.tcp, p)
          · rw [if_pos hkp]
            subst hkp
            exact .inr ⟨_, rfl, .inl ⟨rfl, rfl⟩, fun y hy => .inl (hk1 y hy)⟩
          · rw [if_neg hkp]; exact .inl rfl

theorem starts_port {ip : Ipv4} {n : Nat} (h : Starts sha1 utf8 ip t n t') (k : Proto × U16) :
    t'.get? k = t.get? k ∨ ∃ x, t'.get? k = some x ∧ Ours ip k x ∧
      ∀ y, t.get? k = some y → y.internal = ⟨ip, 46492#16⟩ ∨ y.internal = ⟨ip, 46493#16⟩ := by
  have step : ∀ {t1 t2 : Table} {w w' m c a tree} {r : Res State}, a.localIp = .v4 ip → Around.Keeps a t1 ip →
      launchBehind sha1 utf8 w m c a t1 = (t2, w', tree, r) →
      (t1.get? k = t.get? k ∨ ∃ x, t1.get? k = some x ∧ Ours ip k x ∧
        ∀ y, t.get? k = some y → y.internal = ⟨ip, 46492#16⟩ ∨ y.internal = ⟨ip, 46493#16⟩) →
      (t2.get? k = t.get? k ∨ ∃ x, t2.get? k = some x ∧ Ours ip k x ∧
        ∀ y, t.get? k = some y → y.internal = ⟨ip, 46492#16⟩ ∨ y.internal = ⟨ip, 46493#16⟩) := by
    intro t1 t2 w w' m c a tree r hip hk hl ih
    rcases start_port hip hk hl k with h1 | ⟨x, h1, h2, h3⟩
    · rw [h1]; exact ih
    · refine .inr ⟨x, h1, h2, fun y hy => ?_⟩
      rcases ih with ih | ⟨_, _, _, ih⟩
      · exact h3 y (ih.trans hy)
      · exact ih y hy
  induction h with
  | none => exact .inl rfl
  | ran _ hip hk hl ih => exact step hip hk hl ih
  | failed _ hip hk hl _ ih => exact step hip hk hl ih

/-- C135, what holds: however often the program is started, and whether it starts or not: a gateway that does not give away
ports that are forwarded elsewhere still forwards everything that was forwarded elsewhere as before, and whatever else it
forwards now is forwarded to the two ports of this program. Missing: the mappings are removed again; see below. -/
theorem C135_others_kept_partial (sha1 : Bytes → ID) (utf8 : Bytes → Bool) (ip : Ipv4) (t t' : Table) (n : Nat)
    (h : Starts sha1 utf8 ip t n t') :
    (∀ k x, t.get? k = some x → x.internal ≠ ⟨ip, 46492#16⟩ → x.internal ≠ ⟨ip, 46493#16⟩ → t'.get? k = some x) ∧
      ∀ k x, t'.get? k = some x → t.get? k = some x ∨ (k.1 = .tcp ∧ x.internal = ⟨ip, 46492#16⟩) ∨
        (k.1 = .udp ∧ x.internal = ⟨ip, 46493#16⟩) := by
  refine ⟨fun k x hx h1 h2 => ?_, fun k x hx => ?_⟩
  · rcases starts_port h k with hk | ⟨_, _, _, hy⟩
    · rw [hk]; exact hx
    · rcases hy x hx with hy | hy
      · exact absurd hy h1
      · exact absurd hy h2
  · rcases starts_port h k with hk | ⟨y, hy, ho, _⟩
    · exact .inl (hk ▸ hx)
    · rw [hx] at hy
      cases hy
      rcases ho with ⟨h1, rfl⟩ | ⟨h1, rfl⟩
      · exact .inr (.inl ⟨h1, rfl⟩)
      · exact .inr (.inr ⟨h1, rfl⟩)

/-- C135 fails: once the program has run, however it ended and however often it was started, the gateway forwards a TCP
port and a UDP port to this machine, and will do so for ever. -/
theorem C135_leftover_violated (sha1 : Bytes → ID) (utf8 : Bytes → Bool) (ip : Ipv4) (t t' : Table) (n : Nat)
    (h : Starts sha1 utf8 ip t n t') (hn : 0 < n) :
    ∃ p q x y, t'.get? (.tcp, p) = some x ∧ x.internal = ⟨ip, 46492#16⟩ ∧ x.lease = 0 ∧
      t'.get? (.udp, q) = some y ∧ y.internal = ⟨ip, 46493#16⟩ ∧ y.lease = 0 := by
  have keeps : ∀ {t1 t2 : Table} {w w' m c a tree} {r : Res State}, a.localIp = .v4 ip → Around.Keeps a t1 ip →
      launchBehind sha1 utf8 w m c a t1 = (t2, w', tree, r) →
      (∃ p q x y, t1.get? (.tcp, p) = some x ∧ x.internal = ⟨ip, 46492#16⟩ ∧ x.lease = 0 ∧
        t1.get? (.udp, q) = some y ∧ y.internal = ⟨ip, 46493#16⟩ ∧ y.lease = 0) →
      ∃ p q x y, t2.get? (.tcp, p) = some x ∧ x.internal = ⟨ip, 46492#16⟩ ∧ x.lease = 0 ∧
        t2.get? (.udp, q) = some y ∧ y.internal = ⟨ip, 46493#16⟩ ∧ y.lease = 0 := by
    rintro t1 t2 w w' m c a tree r hip hk hl ⟨p, q, x, y, h1, h2, h3, h4, h5, h6⟩
    obtain ⟨x', g1, g2, g3⟩ : ∃ x', t2.get? (.tcp, p) = some x' ∧ x'.internal = ⟨ip, 46492#16⟩ ∧ x'.lease = 0 := by
      rcases start_port hip hk hl (.tcp, p) with he | ⟨x', he, ho, _⟩
      · exact ⟨x, he.trans h1, h2, h3⟩
      · rcases ho with ⟨_, rfl⟩ | ⟨h, _⟩
        · exact ⟨_, he, rfl, rfl⟩
        · cases h
    obtain ⟨y', g4, g5, g6⟩ : ∃ y', t2.get? (.udp, q) = some y' ∧ y'.internal = ⟨ip, 46493#16⟩ ∧ y'.lease = 0 := by
      rcases start_port hip hk hl (.udp, q) with he | ⟨y', he, ho, _⟩
      · exact ⟨y, he.trans h4, h5, h6⟩
      · rcases ho with ⟨h, _⟩ | ⟨_, rfl⟩
        · cases h
        · exact ⟨_, he, rfl, rfl⟩
    exact ⟨p, q, x', y', g1, g2, g3, g4, g5, g6⟩
  induction h with
  | none => omega
  | failed _ hip hk hl _ ih => exact keeps hip hk hl (ih hn)
  | @ran n t1 t2 w m c a w' tree s0 _ hip hk hl ih =>
    obtain ⟨q, ho, _⟩ := launch_ran hl
    obtain ⟨ip', hip', _, _, _, ht⟩ := open_ok ho
    rw [hip] at hip'
    cases hip'
    refine ⟨w'.port, q, ⟨⟨ip, LOCAL_PORT_TCP⟩, 0, TCP_TEXT⟩, ⟨⟨ip, LOCAL_PORT_UDP⟩, 0, UDP_TEXT⟩, ?_, rfl, rfl, ?_, rfl, rfl⟩
    · rw [ht, Map.get?_insert, if_neg (by simp), Map.get?_insert, if_pos rfl]
    · rw [ht, Map.get?_insert, if_pos rfl]

/-- C135 fails: every start leaves two mappings more, if the gateway opens ports that were free. -/
theorem C135_accumulates_violated (sha1 : Bytes → ID) (utf8 : Bytes → Bool) (t t' : Table) (n : Nat)
    (h : FreshStarts sha1 utf8 t n t') : t'.length = t.length + 2 * n := by
  induction h with
  | none => rfl
  | @ran n t1 t2 w m c a w' tree s0 _ h1 h2 hl ih =>
    obtain ⟨q, ho, _⟩ := launch_ran hl
    obtain ⟨ip, _, _, hp, hq, ht⟩ := open_ok ho
    have g1 := Map.get?_eq_none.mp (h1 _ hp)
    have g2 := Map.get?_eq_none.mp (h2 _ hq)
    have g3 : (Proto.udp, q) ∉ Map.keys (t1.insert (.tcp, w'.port) ⟨⟨ip, LOCAL_PORT_TCP⟩, 0, TCP_TEXT⟩) := by
      intro hm
      rcases Map.mem_keys_insert.mp hm with hm | hm
      · cases hm
      · exact g2 hm
    rw [ht, Map.length_insert, if_neg g3, Map.length_insert, if_neg g1, ih]
    omega

/-- C135 fails: when the gateway opens the port for peers and refuses the one for the DHT, the program does not start, and
the port for peers stays open. -/
theorem C135_failed_start_violated (sha1 : Bytes → ID) (utf8 : Bytes → Bool) (w : World) (m : Machine) (c : Chance)
    (a : Around) (t : Table) (ip : Ipv4) (p : U16) (x : Torrent) (hm : readTorrent sha1 utf8 m = .ok x)
    (hip : a.localIp = .v4 ip) (hf : a.found = true) (hp : a.tcp = .opened p) (hq : a.udp = .refused) :
    ∃ t', launchBehind sha1 utf8 w m c a t = (t', w, m.tree, .err) ∧ LeadsHere t' ip p := by
  refine ⟨t.insert (.tcp, p) ⟨⟨ip, LOCAL_PORT_TCP⟩, 0, TCP_TEXT⟩, ?_, TCP_TEXT, ?_⟩
  · have ho : openAnyPort a t = (t.insert (.tcp, p) ⟨⟨ip, LOCAL_PORT_TCP⟩, 0, TCP_TEXT⟩, .err) := by
      unfold openAnyPort
      simp only [hip, hf, hp, hq, addAnyPort, if_true]
      rfl
    have hx : readTorrent sha1 utf8 { m with gateway := false } = .ok x := hm
    unfold launchBehind launch
    simp only [hm, hx, ho]
    rfl
  · rw [Map.get?_insert, if_pos rfl]
    rfl

/-! ## The statements are not about nothing -/

/-- Start the program behind a gateway and make these steps; what `f` says about the forwarded ports, what happened and the
state afterwards. -/
def sessionBehind {α : Type} (m : Machine) (a : Around) (t : Table) (as : List Act)
    (f : Table → List Program.Event → State → α) : Option α :=
  match launchBehind demoSha1 (fun _ => true) demoWorld m (demoChance 0#8) a t with
  | (t', w', _, .ok s0) => (acts w' s0 as).map fun r => f t' r.1 r.2
  | _ => none

theorem sessionBehind_sound {α : Type} {as : List Act} {f : Table → List Program.Event → State → α} {b : α}
    (h : sessionBehind m a t as f = some b) :
    ∃ t' w' tree s0 es s, launchBehind demoSha1 (fun _ => true) demoWorld m (demoChance 0#8) a t = (t', w', tree, .ok s0) ∧
      Program.Run w' s0 es s ∧ f t' es s = b := by
  unfold sessionBehind at h
  split at h
  · next t' w' tree s0 hl =>
    obtain ⟨⟨es, s⟩, h1, h2⟩ := Option.map_eq_some_iff.mp h
    exact ⟨t', w', tree, s0, es, s, hl, acts_run h1, h2⟩
  · cases h

/-- The address of this machine behind the gateway. -/
def demoIp : Ipv4 := ⟨192#8, 168#8, 0#8, 7#8⟩

/-- The gateway already forwards a port to another machine. -/
def demoTable : Table := [((.tcp, 8080#16), ⟨⟨⟨192#8, 168#8, 0#8, 9#8⟩, 80#16⟩, 3600, ascii "web"⟩)]

/-- A gateway that opens these two ports. -/
def opens (p q : U16) : Around := ⟨.v4 demoIp, true, .opened p, .opened q⟩

/-- The machine, with a file in which the routing table has one node. -/
def demoBehind : Machine := demoMachine demoMulti (some (TableFile.encTable oneNode)) demoHome true

/-- The hypotheses of `C134_forwarded` are met, by a session in which the client is announced to a tracker and to a node of
the DHT, each time with the port that the gateway opened for peers. -/
example : ∃ t' w' tree s0 es s target ih token,
    launchBehind demoSha1 (fun _ => true) demoWorld demoBehind (demoChance 0#8) (opens 50000#16 50001#16) demoTable =
      (t', w', tree, .ok s0) ∧ Program.Run w' s0 es s ∧
    (s.trackers.map fun x => (sentAnnounces x.log).map fun b => b.port) = [[50000#16]] ∧
    .asks target (.announcePeer ih 50000#16 token) ∈ es := by
  have : sessionBehind demoBehind (opens 50000#16 50001#16) demoTable (.ev (.tracker 0 .sends) :: announcesItself)
      (fun _ es s => ((s.trackers.map fun x => (sentAnnounces x.log).map fun b => b.port),
        (lookupAsked es).filterMap fun x => match x.2 with
          | .announcePeer _ p token => some (x.1, p, token)
          | _ => none)) = some ([[50000#16]], [(exAddr 1, 50000#16, ascii "tok")]) := by decide +kernel
  obtain ⟨t', w', tree, s0, es, s, h1, h2, h3⟩ := sessionBehind_sound this
  simp only [Prod.mk.injEq] at h3
  obtain ⟨f1, f2⟩ := h3
  have hm : (exAddr 1, 50000#16, ascii "tok") ∈ ((lookupAsked es).filterMap fun x => match x.2 with
          | .announcePeer _ p token => some (x.1, p, token)
          | _ => none) := by rw [f2]; simp
  obtain ⟨⟨target, q⟩, hx, hq⟩ := List.mem_filterMap.mp hm
  obtain ⟨ev, hev, he⟩ := List.mem_filterMap.mp hx
  cases ev with
  | asks target' q' =>
    cases he
    cases q with
    | announcePeer ih p token =>
      simp only [Option.some.injEq, Prod.mk.injEq] at hq
      obtain ⟨rfl, rfl, rfl⟩ := hq
      exact ⟨t', w', tree, s0, es, s, _, ih, _, h1, h2, f1, hev⟩
    | _ => cases hq
  | _ => cases he

/-- The torrent of the demonstration can be read. -/
theorem demo_read : ∃ x, Torrent.fromBuf demoSha1 (fun _ => true) demoMulti = .ok x ∧
    readTorrent demoSha1 (fun _ => true) (demoMachine demoMulti none demoHome true) = .ok x := by
  obtain ⟨x, hx, -⟩ := demoMulti_ok
  exact ⟨x, hx, by simp only [readTorrent, demoMachine, hx]⟩

/-- The program starts behind the gateway. -/
theorem demo_behind (p q : U16) (t : Table) : ∃ w' tree s0,
    launchBehind demoSha1 (fun _ => true) demoWorld (demoMachine demoMulti none demoHome true) (demoChance 0#8) (opens p q) t =
      ((t.insert (.tcp, p) ⟨⟨demoIp, 46492#16⟩, 0, TCP_TEXT⟩).insert (.udp, q) ⟨⟨demoIp, 46493#16⟩, 0, UDP_TEXT⟩, w', tree,
        .ok s0) := by
  obtain ⟨x, hx, hm⟩ := demo_read
  obtain ⟨tree, s0, hl⟩ : ∃ tree s0, launch demoSha1 (fun _ => true) { demoWorld with port := p }
      (demoMachine demoMulti none demoHome true) (demoChance 0#8) = (tree, .ok s0) :=
    ⟨_, _, launch_eq (m := demoMachine demoMulti none demoHome true) rfl hx rfl rfl⟩
  refine ⟨{ demoWorld with port := p }, tree, s0, ?_⟩
  have ho : openAnyPort (opens p q) t = ((t.insert (.tcp, p) ⟨⟨demoIp, 46492#16⟩, 0, TCP_TEXT⟩).insert (.udp, q)
      ⟨⟨demoIp, 46493#16⟩, 0, UDP_TEXT⟩, .ok (p, q)) := rfl
  have hg : { demoMachine demoMulti none demoHome true with gateway := true } = demoMachine demoMulti none demoHome true :=
    rfl
  unfold launchBehind
  simp only [hm, ho, hg, hl]

/-- The program does not start when the port for the DHT is refused. -/
theorem demo_refused (p : U16) (t : Table) : ∃ t' w' tree,
    launchBehind demoSha1 (fun _ => true) demoWorld (demoMachine demoMulti none demoHome true) (demoChance 0#8)
      ⟨.v4 demoIp, true, .opened p, .refused⟩ t = (t', w', tree, .err) ∧ LeadsHere t' demoIp p := by
  obtain ⟨x, -, hx⟩ := demo_read
  obtain ⟨t', h1, h2⟩ := C135_failed_start_violated demoSha1 (fun _ => true) demoWorld
    (demoMachine demoMulti none demoHome true) (demoChance 0#8) ⟨.v4 demoIp, true, .opened p, .refused⟩ t demoIp p x hx rfl
    rfl rfl rfl
  exact ⟨t', _, _, h1, h2⟩

/-- The hypotheses of `C135_others_kept_partial`, `C135_leftover_violated` and `C135_failed_start_violated` are met: a
gateway that forwards a port elsewhere, a start that fails and one that does not. -/
example : ∃ t', Starts demoSha1 (fun _ => true) demoIp demoTable 1 t' ∧
    t'.get? (.tcp, 8080#16) = some ⟨⟨⟨192#8, 168#8, 0#8, 9#8⟩, 80#16⟩, 3600, ascii "web"⟩ := by
  obtain ⟨w', tree, s0, hl⟩ := demo_behind 50000#16 50001#16 demoTable
  have h1 : Starts demoSha1 (fun _ => true) demoIp demoTable 1 _ := .ran .none rfl (by
    refine ⟨fun x hx => ?_, fun x hx => ?_⟩
    · exact absurd (hx.symm.trans (show demoTable.get? (.tcp, 50000#16) = none by decide)) (by simp)
    · exact absurd (hx.symm.trans (show demoTable.get? (.udp, 50001#16) = none by decide)) (by simp)) hl
  obtain ⟨t', w2, tree2, hf, -⟩ := demo_refused 50000#16
    ((demoTable.insert (.tcp, 50000#16) ⟨⟨demoIp, 46492#16⟩, 0, TCP_TEXT⟩).insert (.udp, 50001#16)
      ⟨⟨demoIp, 46493#16⟩, 0, UDP_TEXT⟩)
  have h2 : Starts demoSha1 (fun _ => true) demoIp demoTable 1 t' := .failed h1 rfl (by
    refine ⟨fun x hx => ?_, trivial⟩
    rw [Map.get?_insert, if_neg (by decide), Map.get?_insert, if_pos rfl] at hx
    cases hx
    rfl) hf (fun _ h => by cases h)
  exact ⟨t', h2, (C135_others_kept_partial _ _ _ _ _ _ h2).1 _ _ rfl (by decide) (by decide)⟩

/-- The hypotheses of `C135_accumulates_violated` are met: after two starts there are four mappings more. -/
example : ∃ t', FreshStarts demoSha1 (fun _ => true) demoTable 2 t' ∧ t'.length = 5 := by
  obtain ⟨w1, tree1, s1, h1⟩ := demo_behind 50000#16 50001#16 demoTable
  obtain ⟨w2, tree2, s2, h2⟩ := demo_behind 50002#16 50003#16
    ((demoTable.insert (.tcp, 50000#16) ⟨⟨demoIp, 46492#16⟩, 0, TCP_TEXT⟩).insert (.udp, 50001#16)
      ⟨⟨demoIp, 46493#16⟩, 0, UDP_TEXT⟩)
  have hs : FreshStarts demoSha1 (fun _ => true) demoTable 2 _ := .ran
    (.ran .none (fun p hp => by cases hp; decide) (fun p hp => by cases hp; decide) h1)
    (fun p hp => by cases hp; decide +kernel) (fun p hp => by cases hp; decide +kernel) h2
  exact ⟨_, hs, C135_accumulates_violated _ _ _ _ _ hs⟩

end Nargun.Gateway
