import Verif.Lemmas.Scheduler
import Verif.Props.ProgramFairFlow
import Verif.Spec.FairLookup

/-! # Every history of the program can go on fairly

The theorems about fair executions (C92, C96, C120, C125, C147, C148) would say nothing about histories that no fair
execution begins with. There are none. -/

namespace Nargun.Program

open Nargun Dht Krpc Spec DhtManager DhtSystem

/-- All peers, numbered. -/
def peerOf (n : Nat) : Peer :=
  ⟨⟨⟨BitVec.ofNat 8 (n / 1099511627776), BitVec.ofNat 8 (n / 4294967296), BitVec.ofNat 8 (n / 16777216),
    BitVec.ofNat 8 (n / 65536)⟩, BitVec.ofNat 16 n⟩⟩

theorem peerOf_surjective (q : Peer) : ∃ n, peerOf n = q := by
  obtain ⟨⟨⟨a, b, c, d⟩, p⟩⟩ := q
  have ha := a.isLt
  have hb := b.isLt
  have hc := c.isLt
  have hd := d.isLt
  have hp := p.isLt
  refine ⟨a.toNat * 1099511627776 + b.toNat * 4294967296 + c.toNat * 16777216 + d.toNat * 65536 + p.toNat, ?_⟩
  simp only [peerOf, Peer.mk.injEq, SockAddr.mk.injEq, Ipv4.mk.injEq]
  refine ⟨⟨?_, ?_, ?_, ?_⟩, ?_⟩ <;> (apply BitVec.eq_of_toNat_eq; simp only [BitVec.toNat_ofNat]; omega)

/-- All kinds of events that fairness is about. -/
def kind : Nat → Nat → Event → Prop
  | 0, _ => SocketTakes
  | 1, _ => SocketWorks
  | 2, _ => TableWorks
  | 3, _ => TableNotices
  | 4, _ => (· = .tableEnds)
  | 5, _ => LookupHears
  | 6, _ => LookupBegins
  | 7, _ => (· = .look ⟨.pass 1, []⟩)
  | 8, i => (· = .trackerNotices i)
  | 9, i => (· = .trackerEnds i)
  | 10, _ => (· = .exits)
  | 11, _ => TableTakesQuery
  | 12, _ => TableTakesAnswer
  | 13, _ => LookupAsks
  | 14, i => ConnectionParses (peerOf i)
  | 15, i => ConnectionHands (peerOf i)
  | 16, i => DownloaderTakesCommand (peerOf i)
  | 17, i => DownloaderTakesBlock (peerOf i)
  | 18, i => DownloaderWorks (peerOf i)
  | 19, _ => ManagerHears
  | 20, _ => ManagerWorks
  | 21, _ => TableTakesNode
  | 22, _ => ManagerTicks
  | 23, _ => LookupTimesOut
  | 24, _ => TableRefreshes
  | 25, _ => (· = .dht { man := some ⟨.pass 1, []⟩ })
  | _, _ => fun _ => False

variable {w : World} {u : Setup}

theorem receive_now (f : Fetch.Fetcher) (r : FromConResp) : (f.receive r).1.now = f.now := by
  have ha : ∀ g : Fetch.Fetcher, (g.answer r).1.now = g.now := by
    intro g
    cases r with
    | getPeers sender token vn =>
      simp only [Fetch.Fetcher.answer]
      cases g.nodes.get? sender with
      | none => rfl
      | some node => cases vn <;> rfl
    | _ => rfl
  have ht : ∀ g : Fetch.Fetcher, g.trim.1.now = g.now := by
    intro g
    simp only [Fetch.Fetcher.trim]
    split <;> rfl
  simp only [Fetch.Fetcher.receive]
  split
  · split
    · simp only [Fetch.Fetcher.finish]
      rw [ht, ha]
    · rw [ht, ha]
  · rfl

/-- A lookup has a time, which only increases. -/
theorem time_goes {s s' : State} {e : Event} (hs : Step w s e s') {l : Lookup} (hl : s.lookup = some l) :
    ∃ l', s'.lookup = some l' ∧ l.task.now ≤ l'.task.now ∧ (e = .look ⟨.pass 1, []⟩ → l.task.now < l'.task.now) := by
  have same : s'.lookup = s.lookup → e ≠ .look ⟨.pass 1, []⟩ →
      ∃ l', s'.lookup = some l' ∧ l.task.now ≤ l'.task.now ∧ (e = .look ⟨.pass 1, []⟩ → l.task.now < l'.task.now) :=
    fun h he => ⟨l, by rw [h, hl], Nat.le_refl _, fun h => absurd h he⟩
  cases hs.2 with
  | lookup h => rw [hl] at h; cases h
  | look h1 _ _ h4 h5 =>
    rw [hl] at h1; cases h1
    refine ⟨_, rfl, ?_⟩
    cases h5 with
    | tick => exact ⟨Nat.le_refl _, by simp⟩
    | timeout => exact ⟨Nat.le_refl _, by simp⟩
    | _ => exact absurd h4 id
  | lookIdle h1 h4 h5 =>
    rw [hl] at h1; cases h1
    refine ⟨_, rfl, ?_⟩
    cases h5 with
    | @pass d =>
      refine ⟨Nat.le_add_right _ _, ?_⟩
      intro h
      simp only [Event.look.injEq, Fetch.Entry.mk.injEq, Fetch.Event.pass.injEq, and_true] at h
      subst h
      exact Nat.lt_succ_self _
    | reorder => exact ⟨Nat.le_refl _, by simp⟩
    | _ => exact absurd h4 id
  | asks h1 => rw [hl] at h1; cases h1; exact ⟨_, rfl, Nat.le_refl _, by simp⟩
  | asksNobody h1 => rw [hl] at h1; cases h1; exact ⟨_, rfl, Nat.le_refl _, by simp⟩
  | hears h1 _ _ _ h5 =>
    rw [hl] at h1; cases h1
    refine ⟨_, rfl, ?_, by simp⟩
    cases h5 with
    | answer =>
      show l.task.now ≤ ((s.looking l).receive _).1.now
      rw [receive_now]
      exact Nat.le_refl _
  | _ => exact same rfl (by simp)

/-- What a step does to the time of the table task, to the moment of its last turn and to the number of refreshes. -/
theorem table_next {s s' : State} {e : Event} (hr : Reachable s.dht.man.table) (hs : Step w s e s') :
    s.dht.man.now ≤ s'.dht.man.now ∧ (e = .dht { man := some ⟨.pass 1, []⟩ } → s.dht.man.now < s'.dht.man.now) ∧
    ((s'.dht.man.since = s.dht.man.since ∧ s'.dht.man.refreshes = s.dht.man.refreshes ∧
        (s.dht.manTodo = [] → s'.dht.manTodo = [])) ∨
      s'.dht.man.status ≠ .running ∨ TableRefreshes e ∨ TableTakesQuery e ∨ TableTakesAnswer e ∨ TableTakesNode e) := by
  have hr : Reachable s.nodes.man.table := hr
  rcases turn_dhtStep hs.2 with ⟨h1, h2⟩ | ⟨x, h1, h2, _⟩
  · refine ⟨by rw [h2]; exact Nat.le_refl _, ?_, .inl ⟨by rw [h2], by rw [h2], by rw [h2]; exact id⟩⟩
    rintro rfl
    simp [dhtEvents] at h1
  have turn : ∀ {m : DhtManager.Manager} {y : DhtManager.Entry}, x.man = some y → DhtManager.Step w.refreshPause s.nodes.man y m →
      s.dht.man.now ≤ m.now ∧ (e = .dht { man := some ⟨.pass 1, []⟩ } → s.dht.man.now < m.now) ∧
      ((m.since = s.dht.man.since ∧ m.refreshes = s.dht.man.refreshes ∧ isTurn y = false) ∨ m.status ≠ .running ∨
        isTurn y = true ∧ y.event ≠ .shutdown ∧ y.event ≠ .peersGone ∧ y.event ≠ .conGone) := by
    intro m y hy hst
    have hp : e = .dht { man := some ⟨.pass 1, []⟩ } → y = ⟨.pass 1, []⟩ := by
      rintro rfl
      simp only [dhtEvents, List.filterMap_cons, List.filterMap_nil, List.cons.injEq, and_true] at h1
      subst h1; cases hy; rfl
    cases hst.kind hr with
    | @turn ev mm o1 w o2 hrun hm hl =>
      have hnow : mm.now = s.dht.man.now := hm.spec.2.1
      refine ⟨Nat.le_of_eq hnow.symm, fun he => ?_, .inr (.inr ?_)⟩
      · have := hp he
        cases hm <;> cases this
      · cases hm <;> exact ⟨rfl, by simp, by simp, by simp⟩
    | shutdown => exact ⟨Nat.le_refl _, fun he => (by cases hp he), .inr (.inl (by simp))⟩
    | gone _ h => exact ⟨Nat.le_refl _, fun he => (by rcases h with rfl | rfl <;> cases hp he), .inr (.inl (by simp))⟩
    | others => exact ⟨Nat.le_refl _, fun he => (by cases hp he), .inl ⟨rfl, rfl, rfl⟩⟩
    | @pass d =>
      refine ⟨Nat.le_add_right _ _, fun he => ?_, .inl ⟨rfl, rfl, rfl⟩⟩
      cases hp he
      exact Nat.lt_succ_self _
    | reorder => exact ⟨Nat.le_refl _, fun he => (by cases hp he), .inl ⟨rfl, rfl, rfl⟩⟩
  have same : x.man = none → s'.dht.man = s.nodes.man → (s.dht.manTodo = [] → s'.dht.manTodo = []) →
      s.dht.man.now ≤ s'.dht.man.now ∧ (e = .dht { man := some ⟨.pass 1, []⟩ } → s.dht.man.now < s'.dht.man.now) ∧
      ((s'.dht.man.since = s.dht.man.since ∧ s'.dht.man.refreshes = s.dht.man.refreshes ∧
        (s.dht.manTodo = [] → s'.dht.manTodo = [])) ∨
        s'.dht.man.status ≠ .running ∨ TableRefreshes e ∨ TableTakesQuery e ∨ TableTakesAnswer e ∨ TableTakesNode e) := by
    intro g1 g2 g3
    refine ⟨by rw [g2]; exact Nat.le_refl _, ?_, .inl ⟨by rw [g2]; rfl, by rw [g2]; rfl, g3⟩⟩
    rintro rfl
    simp only [dhtEvents, List.filterMap_cons, List.filterMap_nil, List.cons.injEq, and_true] at h1
    subst h1; cases g1
  generalize s'.dht = d at h2 same
  cases h2 with
  | @direct ev outs man' hm hd hstep =>
    obtain ⟨t1, t2, t3⟩ := turn rfl hstep
    refine ⟨t1, t2, .inr ?_⟩
    rcases t3 with ⟨_, _, t3⟩ | t3 | ⟨_, t3, t4, _⟩
    · cases ev <;> first | exact absurd hd id | cases t3
    · exact .inl t3
    · refine .inr ?_
      cases ev with
      | refresh rb rt =>
        cases e with
        | dht y =>
          simp only [dhtEvents, List.filterMap_cons, List.filterMap_nil, List.cons.injEq, and_true] at h1
          subst h1
          exact .inl ⟨_, _, _, rfl⟩
        | _ => first | (cases h1; done) | simp [dhtEvents] at h1
      | peerNode a =>
        cases hs.2 with
        | dht ho =>
          simp only [dhtEvents, List.filterMap_cons, List.filterMap_nil, List.cons.injEq, and_true] at h1
          subst h1
          exact absurd (ho.table _ rfl) id
        | node => exact .inr (.inr (.inr trivial))
        | _ => first | (cases h1; done) | simp [dhtEvents] at h1
      | shutdown => exact absurd rfl t3
      | peersGone => exact absurd rfl t4
      | _ => exact absurd hd id
  | takeQuery _ _ hstep =>
    obtain ⟨t1, t2, _⟩ := turn rfl hstep
    refine ⟨t1, t2, .inr (.inr (.inr (.inl ?_)))⟩
    cases e with
    | dht y =>
      simp only [dhtEvents, List.filterMap_cons, List.filterMap_nil, List.cons.injEq, and_true] at h1
      subst h1
      exact ⟨_, _, rfl⟩
    | _ => first | (cases h1; done) | simp [dhtEvents] at h1
  | takeAnswer _ _ hstep =>
    obtain ⟨t1, t2, _⟩ := turn rfl hstep
    refine ⟨t1, t2, .inr (.inr (.inr (.inr (.inl ?_))))⟩
    cases e with
    | dht y =>
      simp only [dhtEvents, List.filterMap_cons, List.filterMap_nil, List.cons.injEq, and_true] at h1
      subst h1
      exact ⟨_, _, rfl⟩
    | _ => first | (cases h1; done) | simp [dhtEvents] at h1
  | conGone _ _ _ hstep =>
    obtain ⟨t1, t2, _⟩ := turn rfl hstep
    exact ⟨t1, t2, .inr (.inl (by cases hstep; simp))⟩
  | putFails _ _ hstep =>
    obtain ⟨t1, t2, _⟩ := turn rfl hstep
    exact ⟨t1, t2, .inr (.inl (by cases hstep; simp))⟩
  | @outside ev man' ho hstep =>
    obtain ⟨t1, t2, t3⟩ := turn rfl hstep
    refine ⟨t1, t2, ?_⟩
    rcases t3 with ⟨t3, t4, _⟩ | t3 | ⟨t3, _⟩
    · exact .inl ⟨t3, t4, id⟩
    · exact .inr (.inl t3)
    · cases ev <;> first | exact absurd ho id | cases t3
  | putCommand _ h => exact same rfl rfl fun hm => by rw [show s.dht.manTodo = _ from h] at hm; cases hm
  | spawns _ h => exact same rfl rfl fun hm => by rw [show s.dht.manTodo = _ from h] at hm; cases hm
  | stores _ h => exact same rfl rfl fun hm => by rw [show s.dht.manTodo = _ from h] at hm; cases hm
  | _ => exact same rfl rfl id

/-- Every history of the program can go on in such a way that no task is passed over for ever: fairness rules out no
history. From then on only such events need to happen as fairness is about: in particular, nothing has to arrive. -/
theorem every_history_goes_on_fairly {s0 s : State} {es : List Event} (ht : Reachable u.table) (h0 : Started w u s0)
    (h : Run w s0 es s) :
    ∃ (σ : Nat → State) (ev : Nat → Option Event), σ 0 = s0 ∧ (∀ m, m < es.length → ev m = es[m]?) ∧ σ es.length = s ∧
      Execution w σ ev ∧ FairAll w σ ev ∧ ∀ m e, es.length ≤ m → ev m = some e → ∃ c i, kind c i e := by
  obtain ⟨σ1, z1, z2, z3⟩ := exec_of_run h
  obtain ⟨σ2, ev2, y1, y2, y3, y4⟩ := Scheduler.fair (fun s e s' => Step w s e s' ∧ ∃ c i, kind c i e)
    (fun n => kind (n % 32) (n / 32)) s
  let σ : Nat → State := fun m => if m < es.length then σ1 m else σ2 (m - es.length)
  let ev : Nat → Option Event := fun m => if m < es.length then es[m]? else ev2 (m - es.length)
  have hlt : ∀ {m}, m < es.length → σ m = σ1 m ∧ ev m = es[m]? := fun hm => ⟨if_pos hm, if_pos hm⟩
  have hge : ∀ {m}, es.length ≤ m → σ m = σ2 (m - es.length) ∧ ev m = ev2 (m - es.length) :=
    fun hm => ⟨if_neg (by omega), if_neg (by omega)⟩
  have hσ : ∀ {m}, m ≤ es.length → σ m = σ1 m := by
    intro m hm
    by_cases hl : m < es.length
    · exact (hlt hl).1
    · have : m = es.length := by omega
      subst this
      rw [(hge (Nat.le_refl _)).1, Nat.sub_self, y1, z2 _ (Nat.le_refl _)]
  have hx : Execution w σ ev := by
    refine ⟨fun n e he => ?_, fun n he => ?_⟩
    · by_cases hn : n < es.length
      · rw [(hlt hn).2] at he
        rw [hσ (by omega), hσ (by omega)]
        exact z3.step n e he
      · rw [(hge (by omega)).2] at he
        rw [(hge (by omega)).1, (hge (by omega)).1, show n + 1 - es.length = n - es.length + 1 by omega]
        exact (y2 _ e he).1
    · by_cases hn : n < es.length
      · rw [(hlt hn).2, List.getElem?_eq_getElem hn] at he; cases he
      · rw [(hge (by omega)).2] at he
        rw [(hge (by omega)).1, (hge (by omega)).1, show n + 1 - es.length = n - es.length + 1 by omega]
        exact y3 _ he
  have hfair : ∀ c i, c < 32 → FairTo w σ ev (kind c i) := by
    intro c i hc hp n
    have e1 : (32 * i + c) % 32 = c := by omega
    have e2 : (32 * i + c) / 32 = i := by omega
    obtain ⟨m, e, k1, k2, k3⟩ := y4 (32 * i + c) (fun n => by
      obtain ⟨m, hm, e, s', k1, k2⟩ := hp (n + es.length)
      rw [(hge (by omega)).1] at k2
      exact ⟨m - es.length, by omega, e, s', by simp only [e1, e2]; exact k1, k2, c, i, k1⟩) n
    simp only [e1, e2] at k3
    refine ⟨m + es.length, e, by omega, ?_, k3⟩
    rw [(hge (by omega)).2, Nat.add_sub_cancel]
    exact k2
  have peer : ∀ {A : Peer → Event → Prop}, (∀ i, FairTo w σ ev (A (peerOf i))) → ∀ q, FairTo w σ ev (A q) := by
    intro A hA q
    obtain ⟨i, rfl⟩ := peerOf_surjective q
    exact hA i
  have time : ∀ n t, ∃ m, n ≤ m ∧ ((σ m).down.phase = .done ∨ ∀ l, (σ m).lookup = some l → t ≤ l.task.now) := by
    intro n t
    by_cases hno : ∀ m, n ≤ m → (σ m).lookup = none
    · exact ⟨n, Nat.le_refl _, .inr fun l hl => by rw [hno n (Nat.le_refl _)] at hl; cases hl⟩
    obtain ⟨n1, hno⟩ := Classical.not_forall.mp hno
    have hn1 : n ≤ n1 ∧ (σ n1).lookup ≠ none := ⟨Classical.byContradiction fun h => hno fun h' => absurd h' h, fun h => hno fun _ => h⟩
    by_cases hd : ∃ m, n ≤ m ∧ (σ m).down.phase = .done
    · obtain ⟨m, h1, h2⟩ := hd
      exact ⟨m, h1, .inl h2⟩
    obtain ⟨l1, hl1⟩ := Option.ne_none_iff_exists'.mp hn1.2
    have there : ∀ m, n1 ≤ m → ∃ l, (σ m).lookup = some l := by
      intro m hm
      exact exec_keeps hx (P := fun s => ∃ l, s.lookup = some l) (fun s e s' hs ⟨l, hl⟩ => by
        obtain ⟨l', q, _⟩ := time_goes hs hl
        exact ⟨l', q⟩) hm ⟨l1, hl1⟩
    have often := hfair 7 0 (by omega) (fun k => by
      obtain ⟨l, hl⟩ := there (max n1 k) (by omega)
      exact ⟨max n1 k, by omega, _, _, rfl, fun h => hd ⟨_, by omega, h⟩,
        .lookIdle hl trivial (.pass (s := (σ (max n1 k)).looking l))⟩)
    have key : ∀ t, ∃ m, n1 ≤ m ∧ ∀ l, (σ m).lookup = some l → t ≤ l.task.now := by
      intro t
      induction t with
      | zero => exact ⟨n1, Nat.le_refl _, fun _ _ => Nat.zero_le _⟩
      | succ t ih =>
        obtain ⟨m, hm, ht⟩ := ih
        obtain ⟨k, e, k1, k2, k3⟩ := often m
        refine ⟨k + 1, by omega, fun l hl => ?_⟩
        have mono : ∀ j, m ≤ j → ∀ l, (σ j).lookup = some l → t ≤ l.task.now := by
          intro j hj
          exact exec_keeps hx (P := fun s => (∃ l, s.lookup = some l) ∧ ∀ l, s.lookup = some l → t ≤ l.task.now)
            (fun s e s' hs ⟨⟨l, hl⟩, hall⟩ => by
              obtain ⟨l', q1, q2, _⟩ := time_goes hs hl
              refine ⟨⟨l', q1⟩, fun l'' h => ?_⟩
              rw [q1] at h; cases h
              exact Nat.le_trans (hall l hl) q2) hj ⟨there m (by omega), ht⟩ |>.2
        obtain ⟨l2, hl2⟩ := there k (by omega)
        obtain ⟨l3, q1, _, q3⟩ := time_goes (hx.step k e k2) hl2
        rw [q1] at hl; cases hl
        have := mono k k1 l2 hl2
        have := q3 k3
        omega
    obtain ⟨m, h1, h2⟩ := key t
    exact ⟨m, by omega, .inr h2⟩
  have h0' : Started w u (σ 0) := by rw [hσ (Nat.zero_le _), z1]; exact h0
  have reach : ∀ m, Reachable (σ m).dht.man.table := by
    intro m
    obtain ⟨l, hl, _⟩ := started_dht h0' (exec_run hx m)
    exact ((Base.start (now := u.now) ht .nil).run (Flow.run hl).man).reach
  have tableTime : ∀ n t, ∃ m, n ≤ m ∧ ((σ m).down.phase = .done ∨ t ≤ (σ m).dht.man.now) := by
    intro n t
    by_cases hd : ∃ m, n ≤ m ∧ (σ m).down.phase = .done
    · obtain ⟨m, h1, h2⟩ := hd
      exact ⟨m, h1, .inl h2⟩
    have often := hfair 25 0 (by omega) (fun k =>
      ⟨max n k, by omega, _, _, rfl, fun h => hd ⟨_, by omega, h⟩,
        .dht ⟨by rintro _ ⟨⟩; trivial, by simp, rfl, rfl⟩ (.outside (s := (σ (max n k)).nodes) trivial .pass)⟩)
    obtain ⟨m, h1, h2⟩ := reaches (fun m => (σ m).dht.man.now) (fun m => by
      cases he : ev m with
      | none => rw [hx.idle m he]; exact Nat.le_refl _
      | some e => exact (table_next (reach m) (hx.step m e he)).1) (fun k => by
      obtain ⟨m, e, k1, k2, k3⟩ := often k
      exact ⟨m, k1, (table_next (reach m) (hx.step m e k2)).2.1 k3⟩) t n
    exact ⟨m, h1, .inr h2⟩
  refine ⟨σ, ev, by rw [hσ (Nat.zero_le _), z1], fun m hm => (hlt hm).2, by rw [hσ (Nat.le_refl _), z2 _ (Nat.le_refl _)], hx, ?_,
    fun m e hm he => (y2 _ e (by rw [← (hge hm).2]; exact he)).2⟩
  exact {
    socketTakes := hfair 0 0 (by omega), socketWorks := hfair 1 0 (by omega), tableWorks := hfair 2 0 (by omega)
    tableNotices := hfair 3 0 (by omega), tableEnds := hfair 4 0 (by omega), lookupHears := hfair 5 0 (by omega)
    lookupBegins := hfair 6 0 (by omega), lookupTime := time
    trackerNotices := fun i => hfair 8 i (by omega), trackerEnds := fun i => hfair 9 i (by omega)
    exits := hfair 10 0 (by omega), tableTakesQuery := hfair 11 0 (by omega), tableTakesAnswer := hfair 12 0 (by omega)
    lookupAsks := hfair 13 0 (by omega)
    connectionParses := peer fun i => hfair 14 i (by omega), connectionHands := peer fun i => hfair 15 i (by omega)
    downloaderTakesCommand := peer fun i => hfair 16 i (by omega)
    downloaderTakesBlock := peer fun i => hfair 17 i (by omega)
    downloaderWorks := peer fun i => hfair 18 i (by omega)
    managerHears := hfair 19 0 (by omega), managerWorks := hfair 20 0 (by omega), tableTakesNode := hfair 21 0 (by omega)
    managerTicks := hfair 22 0 (by omega), lookupTimesOut := hfair 23 0 (by omega)
    tableRefreshes := hfair 24 0 (by omega), tableTime := tableTime }

end Nargun.Program
