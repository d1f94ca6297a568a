import Mathlib.Data.List.Perm.Subperm
import Verif.Lemmas.Fetcher
import Verif.Props.Peers

/-! # C79, C80, C81, C96 -/

namespace Nargun.Fetch

open Nargun Dht Krpc Spec

theorem queried_snoc {h : List Entry} {e : Entry} {a : SockAddr} :
    Queried (h ++ [e]) a ↔ Queried h a ∨ ∃ ih, (a, ToConQuery.getPeers ih) ∈ e.sent := by
  simp only [Queried, List.mem_append, List.mem_singleton]
  constructor
  · rintro ⟨x, hx | rfl, hm⟩
    · exact .inl ⟨x, hx, hm⟩
    · exact .inr hm
  · rintro (⟨x, hx, hm⟩ | hm)
    · exact ⟨x, .inl hx, hm⟩
    · exact ⟨e, .inr rfl, hm⟩

theorem lastAnswer_snoc (h : List Entry) (e : Entry) (a : SockAddr) :
    lastAnswer (h ++ [e]) a = (answerFrom a e).or (lastAnswer h a) := by
  simp only [lastAnswer, List.reverse_append, List.reverse_cons, List.reverse_nil, List.nil_append,
    List.singleton_append, List.findSome?_cons]
  cases answerFrom a e <;> rfl

theorem learned_snoc {init : List Node} {h : List Entry} {e : Entry} {a : SockAddr} (hl : Learned init h a) :
    Learned init (h ++ [e]) a := by
  rcases hl with h1 | ⟨b, x, c, sender, token, ns, rfl, h2, h3, h4⟩
  · exact .inl h1
  · exact .inr ⟨b, x, c ++ [e], sender, token, ns, by simp, h2, h3, h4⟩

theorem learned_now {init : List Node} {h : List Entry} {e : Entry} {a sender : SockAddr} {token : Bytes} {ns : Nodes}
    (he : e.event = .answer (.getPeers sender token (.nodes ns))) (hq : Queried h sender)
    (ha : a ∈ ns.list.map (·.addr)) : Learned init (h ++ [e]) a :=
  .inr ⟨h, e, [], sender, token, ns, rfl, he, hq, ha⟩

/-- Invariant of all histories. -/
structure Inv (init : List Node) (ih : ID) (port : U16) (h : List Entry) (s : Fetcher) : Prop where
  infoHash : s.infoHash = ih
  port : s.port = port
  wf : s.nodes.WF
  fetching : ∀ since, s.phase = .fetching since → 0 < s.rounds
  queried : 0 < s.rounds → ∀ a n, s.nodes.get? a = some n → Queried h a
  learned : ∀ a n, s.nodes.get? a = some n → Learned init h a
  token : ∀ a n t, s.nodes.get? a = some n → n.token = some t → lastAnswer h a = some (t, decide (worth n = 0))

theorem start_get (nodes : List Node) : ∀ m : NodeMap, m.WF →
    (nodes.foldl (fun m n => m.insert n.addr (.unknown n.id)) m).WF ∧
    ∀ a n, (nodes.foldl (fun m n => m.insert n.addr (.unknown n.id)) m : NodeMap).get? a = some n →
      m.get? a = some n ∨ (a ∈ nodes.map (·.addr) ∧ ∃ id, n = .unknown id) := by
  induction nodes with
  | nil => intro m hm; exact ⟨hm, fun a n h => .inl h⟩
  | cons x xs ihx =>
    intro m hm
    obtain ⟨h1, h2⟩ := ihx _ (Map.wf_insert hm x.addr (.unknown x.id))
    refine ⟨h1, ?_⟩
    intro a n hg
    rcases h2 a n hg with h | ⟨h, h'⟩
    · rw [Map.get?_insert] at h
      split at h
      · rename_i ha
        simp only [Option.some.injEq] at h
        exact .inr ⟨by simp [ha], _, h.symm⟩
      · exact .inl h
    · exact .inr ⟨by simp only [List.map_cons, List.mem_cons]; exact .inr h, h'⟩

theorem Inv.start (init : List Node) (ih : ID) (port : U16) (peers : Peers) (now : Nat) :
    Inv init ih port [] (start ih port init peers now) where
  infoHash := rfl
  port := rfl
  wf := (start_get init [] List.nodup_nil).1
  fetching since h := by simp [Fetch.start] at h
  queried h := by simp [Fetch.start] at h
  learned a n h := by
    rcases (start_get init [] List.nodup_nil).2 a n h with h | h
    · simp at h
    · exact .inl h.1
  token a n t h ht := by
    rcases (start_get init [] List.nodup_nil).2 a n h with h | ⟨_, id, rfl⟩
    · simp at h
    · simp [Close.token] at ht

theorem answerFrom_other {a : SockAddr} {ev : Event} {sent : List Sent} (h : ∀ r, ev ≠ .answer r) :
    answerFrom a ⟨ev, sent⟩ = none := by
  cases ev <;> first | rfl | exact absurd rfl (h _)

theorem answer_sent {s : Fetcher} {sender : SockAddr} {token : Bytes} {vn : ValuesOrNodes} {x : Sent}
    (h : x ∈ (s.answer (.getPeers sender token vn)).2) :
    ∃ ns a, vn = .nodes ns ∧ x = (a, .getPeers s.infoHash) ∧ a ∈ ns.list.map (·.addr) ∧ s.nodes.get? a = none := by
  simp only [Fetcher.answer] at h
  split at h
  · simp at h
  · rename_i node hg
    cases vn with
    | values => simp at h
    | nodes ns =>
      obtain ⟨a, rfl, h1, h2⟩ := (newNodes_sent _ _ _ _).mp h
      rw [Map.get?_insert] at h2
      split at h2
      · simp at h2
      · exact ⟨ns, a, rfl, rfl, h1, h2⟩

theorem announce_mem {port : U16} {ih : ID} {m : NodeMap} {x : Sent} (h : x ∈ announcePeer port ih m) :
    ∃ n token, (x.1, n) ∈ m ∧ n.token = some token ∧ x.2 = .announcePeer ih port token := by
  simp only [announcePeer, List.mem_map] at h
  obtain ⟨e, he, rfl⟩ := h
  have := List.mem_of_mem_take he
  simp only [List.mem_filterMap, Option.map_eq_some_iff] at this
  obtain ⟨y, hy, t, ht, rfl⟩ := this
  exact ⟨y.2, t, (sortedNodes_perm m ih).mem_iff.mp hy, ht, rfl⟩

theorem Inv.step {init : List Node} {ih : ID} {port : U16} {pause : Nat → Nat} {h : List Entry} {s s' : Fetcher}
    {e : Entry} (hi : Inv init ih port h s) (hs : Step pause s e s') : Inv init ih port (h ++ [e]) s' := by
  have tok : ∀ (ev : Event) (sent : List Sent), (∀ r, ev ≠ .answer r) → ∀ a n t, s.nodes.get? a = some n →
      n.token = some t → lastAnswer (h ++ [⟨ev, sent⟩]) a = some (t, decide (worth n = 0)) := by
    intro ev sent hev a n t hg ht
    rw [lastAnswer_snoc, answerFrom_other hev, Option.none_or]
    exact hi.token a n t hg ht
  cases hs with
  | tick hp ht =>
    refine ⟨hi.infoHash, hi.port, hi.wf, fun _ _ => Nat.succ_pos _, ?_, fun a n hg => learned_snoc (hi.learned a n hg),
      tok _ _ (by simp)⟩
    intro _ a n hg
    refine queried_snoc.mpr (.inr ⟨s.infoHash, ?_⟩)
    simp only [Fetcher.askAll, List.mem_map]
    exact ⟨a, List.mem_map.mpr ⟨_, Map.mem_of_get? hg, rfl⟩, rfl⟩
  | timeout hp ht =>
    exact ⟨hi.infoHash, hi.port, hi.wf, fun _ h => by simp [Fetcher.finish] at h,
      fun h0 a n hg => queried_snoc.mpr (.inl (hi.queried h0 a n hg)), fun a n hg => learned_snoc (hi.learned a n hg),
      tok _ _ (by simp)⟩
  | others hp =>
    exact ⟨hi.infoHash, hi.port, hi.wf, hi.fetching,
      fun h0 a n hg => queried_snoc.mpr (.inl (hi.queried h0 a n hg)), fun a n hg => learned_snoc (hi.learned a n hg),
      tok _ _ (by simp)⟩
  | pass =>
    exact ⟨hi.infoHash, hi.port, hi.wf, hi.fetching,
      fun h0 a n hg => queried_snoc.mpr (.inl (hi.queried h0 a n hg)), fun a n hg => learned_snoc (hi.learned a n hg),
      tok _ _ (by simp)⟩
  | @reorder m hp =>
    have hg' : ∀ a n, Map.get? m a = some n → s.nodes.get? a = some n := by
      intro a n hg
      exact Map.get?_of_mem hi.wf (hp.mem_iff.mpr (Map.mem_of_get? hg))
    exact ⟨hi.infoHash, hi.port, Map.wf_perm hi.wf hp, hi.fetching,
      fun h0 a n hg => queried_snoc.mpr (.inl (hi.queried h0 a n (hg' a n hg))),
      fun a n hg => learned_snoc (hi.learned a n (hg' a n hg)), fun a n t hg => tok _ _ (by simp) a n t (hg' a n hg)⟩
  | @answer since r hp =>
    have h0 := hi.fetching _ hp
    by_cases ha : s.accepts r = true
    · obtain ⟨sender, token, vn, node, rfl, hg⟩ := accepts_iff.mp ha
      obtain ⟨e1, e2⟩ := receive_accepted ha
      have hw := answer_wf hi.wf (.getPeers sender token vn)
      have hsq := hi.queried h0 sender node hg
      rw [e1, e2]
      refine ⟨hi.infoHash, hi.port, cut_wf hw _, fun _ _ => h0, ?_, ?_, ?_⟩
      · intro _ a n hga
        have := cut_get hw _ hga
        rw [answer_get] at this
        rw [queried_snoc]
        by_cases hk : ∃ n', s.nodes.get? a = some n'
        · obtain ⟨n', hk⟩ := hk
          exact .inl (hi.queried h0 a n' hk)
        · refine .inr ⟨s.infoHash, List.mem_append_left _ ?_⟩
          have hk' : s.nodes.get? a = none := by
            cases h : s.nodes.get? a with
            | none => rfl
            | some n' => exact absurd ⟨n', h⟩ hk
          have hne : a ≠ sender := by rintro rfl; rw [hg] at hk'; simp at hk'
          simp only [afterAnswer, hg] at this
          cases vn with
          | values => simp [hne, hk'] at this
          | nodes ns =>
            simp only [hne, if_false, hk', Option.map_eq_some_iff] at this
            obtain ⟨x, hx, _⟩ := this
            simp only [Fetcher.answer, hg]
            refine (newNodes_sent _ _ _ _).mpr ⟨a, rfl, ?_, by rw [Map.get?_insert]; simp [hne, hk']⟩
            have h1 := List.mem_of_find?_eq_some hx
            have h2 := List.find?_some hx
            simp only [decide_eq_true_eq] at h2
            exact List.mem_map.mpr ⟨x, h1, h2⟩
      · intro a n hga
        have := cut_get hw _ hga
        rw [answer_get] at this
        by_cases hk : ∃ n', s.nodes.get? a = some n'
        · obtain ⟨n', hk⟩ := hk
          exact learned_snoc (hi.learned a n' hk)
        · have hk' : s.nodes.get? a = none := by
            cases h : s.nodes.get? a with
            | none => rfl
            | some n' => exact absurd ⟨n', h⟩ hk
          have hne : a ≠ sender := by rintro rfl; rw [hg] at hk'; simp at hk'
          simp only [afterAnswer, hg] at this
          cases vn with
          | values => simp [hne, hk'] at this
          | nodes ns =>
            simp only [hne, if_false, hk', Option.map_eq_some_iff] at this
            obtain ⟨x, hx, _⟩ := this
            have h1 := List.mem_of_find?_eq_some hx
            have h2 := List.find?_some hx
            simp only [decide_eq_true_eq] at h2
            exact learned_now rfl hsq (List.mem_map.mpr ⟨x, h1, h2⟩)
      · intro a n t hga ht
        have := cut_get hw _ hga
        rw [answer_get] at this
        rw [lastAnswer_snoc]
        simp only [afterAnswer, hg] at this
        cases vn with
        | values vs =>
          by_cases hne : a = sender
          · subst hne
            simp only [if_true, Option.some.injEq] at this
            subst this
            simp only [Close.token, Option.some.injEq] at ht
            subst ht
            simp [answerFrom, worth]
          · have hne' : sender ≠ a := fun h => hne h.symm
            simp only [hne, if_false] at this
            simp only [answerFrom, hne', if_false, Option.none_or]
            exact hi.token a n t this ht
        | nodes ns =>
          by_cases hne : a = sender
          · subst hne
            simp only [if_true, Option.some.injEq] at this
            subst this
            simp only [Close.token, Option.some.injEq] at ht
            subst ht
            simp [answerFrom, worth]
          · have hne' : sender ≠ a := fun h => hne h.symm
            simp only [hne, if_false] at this
            simp only [answerFrom, hne', if_false, Option.none_or]
            split at this
            · rename_i n' hn'
              simp only [Option.some.injEq] at this
              subst this
              exact hi.token a _ t hn' ht
            · simp only [Option.map_eq_some_iff] at this
              obtain ⟨x, _, rfl⟩ := this
              simp [Close.token] at ht
    · have ha : s.accepts r = false := by simpa using ha
      rw [receive_ignored ha]
      refine ⟨hi.infoHash, hi.port, hi.wf, fun _ _ => h0,
        fun h0 a n hg => queried_snoc.mpr (.inl (hi.queried h0 a n hg)), fun a n hg => learned_snoc (hi.learned a n hg), ?_⟩
      intro a n t hg ht
      rw [lastAnswer_snoc]
      have : answerFrom a ⟨.answer r, []⟩ = none := by
        cases r with
        | touch => rfl
        | newNodes => rfl
        | getPeers sender token vn =>
          have hne : sender ≠ a := by
            rintro rfl
            simp [Fetcher.accepts, Map.contains, hg] at ha
          cases vn <;> simp [answerFrom, hne]
      rw [this, Option.none_or]
      exact hi.token a n t hg ht


theorem Inv.run {init : List Node} {ih : ID} {port : U16} {peers : Peers} {now : Nat} {pause : Nat → Nat}
    {h : List Entry} {s : Fetcher} (hr : Run pause (Fetch.start ih port init peers now) h s) : Inv init ih port h s := by
  generalize hs0 : Fetch.start ih port init peers now = s0 at hr
  induction hr with
  | nil => subst hs0; exact Inv.start _ _ _ _ _
  | snoc _ hs ih => exact Inv.step ih hs

/-- What an event sends: requests of the own torrent, and announcements from the working set it leaves, which are made
only when a lookup ends. -/
theorem step_sent {pause : Nat → Nat} {s s' : Fetcher} {e : Entry} (hs : Step pause s e s') :
    ∃ asked said, e.sent = asked ++ said ∧ (∀ x ∈ asked, x.2 = .getPeers s.infoHash) ∧
      ((s.phase ≠ s'.phase ∧ s'.phase = .sleeping s'.now ∧ said = announcePeer s'.port s'.infoHash s'.nodes) ∨
        (said = [] ∧ ((∃ t, s'.phase = .fetching t) ∨ s'.phase = s.phase))) := by
  cases hs with
  | tick =>
    refine ⟨s.askAll, [], by simp, ?_, .inr ⟨rfl, .inl ⟨_, rfl⟩⟩⟩
    intro x hx
    simp only [Fetcher.askAll, List.mem_map] at hx
    obtain ⟨a, _, rfl⟩ := hx
    rfl
  | timeout hp =>
    exact ⟨[], _, rfl, by simp, .inl ⟨by rw [hp]; simp [Fetcher.finish], rfl, rfl⟩⟩
  | others => exact ⟨[], [], rfl, by simp, .inr ⟨rfl, .inr rfl⟩⟩
  | pass => exact ⟨[], [], rfl, by simp, .inr ⟨rfl, .inr rfl⟩⟩
  | reorder => exact ⟨[], [], rfl, by simp, .inr ⟨rfl, .inr rfl⟩⟩
  | @answer since r hp =>
    by_cases ha : s.accepts r = true
    · obtain ⟨sender, token, vn, node, rfl, hg⟩ := accepts_iff.mp ha
      obtain ⟨e1, e2⟩ := receive_accepted ha
      rw [e1, e2]
      refine ⟨_, _, rfl, ?_, ?_⟩
      · intro x hx
        obtain ⟨_, _, _, rfl, _⟩ := answer_sent hx
        rfl
      · generalize (decide ((s.answer (.getPeers sender token vn)).1.nodes.length ≥ 512) &&
          (s.answer (.getPeers sender token vn)).1.peers.enoughPeers.2) = c
        cases c
        · exact .inr ⟨rfl, .inl ⟨_, rfl⟩⟩
        · exact .inl ⟨by rw [hp]; simp, rfl, rfl⟩
    · have ha : s.accepts r = false := by simpa using ha
      rw [receive_ignored ha]
      exact ⟨[], [], rfl, by simp, .inr ⟨rfl, .inl ⟨_, rfl⟩⟩⟩

theorem announcements_append (a b : List Sent) : announcements (a ++ b) = announcements a ++ announcements b := by
  simp [announcements]

theorem announcements_asked {l : List Sent} {ih : ID} (h : ∀ x ∈ l, x.2 = .getPeers ih) : announcements l = [] := by
  simp only [announcements, List.filterMap_eq_nil_iff]
  intro x hx
  rw [h x hx]

/-- The announcements of a working set: its nodes with tokens in order of preference. -/
theorem announcements_said (port : U16) (ih : ID) (m : NodeMap) :
    announcements (announcePeer port ih m) =
      ((sortedNodes m ih).filterMap fun e => e.2.token.map fun token => (e.1, token)).take 16 := by
  simp only [announcements, announcePeer, List.filterMap_map, ANNOUNCE_TO_N_TOP_NODES]
  simp [Function.comp_def]

theorem step_const {pause : Nat → Nat} {s s' : Fetcher} {e : Entry} (hs : Step pause s e s') :
    s'.infoHash = s.infoHash ∧ s'.port = s.port := by
  cases hs with
  | tick => exact ⟨rfl, rfl⟩
  | timeout => exact ⟨rfl, rfl⟩
  | others => exact ⟨rfl, rfl⟩
  | pass => exact ⟨rfl, rfl⟩
  | reorder => exact ⟨rfl, rfl⟩
  | @answer since r hp =>
    by_cases ha : s.accepts r = true
    · rw [(receive_accepted ha).1]; exact ⟨rfl, rfl⟩
    · have ha : s.accepts r = false := by simpa using ha
      rw [receive_ignored ha]; exact ⟨rfl, rfl⟩

/-! ## C79 -/

/-- C79: at any time, announcements are made only when a lookup ends, at most 16 of them, to different nodes, for the
torrent and the port of this client; each with the token of the last answer of that node, and nodes whose last answer
had peers come before the others. -/
theorem C79_announce (pause : Nat → Nat) (ih : ID) (port : U16) (init : List Node) (peers : Peers) (now : Nat)
    (h : List Entry) (s s' : Fetcher) (e : Entry) (hr : Run pause (start ih port init peers now) h s)
    (hs : Step pause s e s') :
    (announcements e.sent ≠ [] → (∃ t, s.phase = .fetching t) ∧ s'.phase = .sleeping s'.now) ∧
    (announcements e.sent).length ≤ 16 ∧ ((announcements e.sent).map (·.1)).Nodup ∧
    (∀ x ∈ e.sent, x.2 = .getPeers ih ∨ ∃ token, x.2 = .announcePeer ih port token) ∧
    (∀ x ∈ announcements e.sent, ∃ hadPeers, lastAnswer (h ++ [e]) x.1 = some (x.2, hadPeers)) ∧
    (announcements e.sent).Pairwise fun x y =>
      lastAnswer (h ++ [e]) y.1 = some (y.2, true) → lastAnswer (h ++ [e]) x.1 = some (x.2, true) := by
  have hi := Inv.run hr
  have hi' := hi.step hs
  obtain ⟨asked, said, hsent, hasked, hsaid⟩ := step_sent hs
  rw [hsent, announcements_append, announcements_asked hasked, List.nil_append]
  rcases hsaid with ⟨hne, hp', rfl⟩ | ⟨rfl, _⟩
  · rw [announcements_said]
    have hsorted := sortedNodes_sorted s'.nodes s'.infoHash
    have hmem : ∀ x ∈ ((sortedNodes s'.nodes s'.infoHash).filterMap fun e => e.2.token.map fun token => (e.1, token)),
        ∃ n, s'.nodes.get? x.1 = some n ∧ n.token = some x.2 := by
      intro x hx
      simp only [List.mem_filterMap, Option.map_eq_some_iff] at hx
      obtain ⟨y, hy, t, ht, rfl⟩ := hx
      exact ⟨y.2, Map.get?_of_mem hi'.wf ((sortedNodes_perm s'.nodes s'.infoHash).mem_iff.mp hy), ht⟩
    have hnd : (((sortedNodes s'.nodes s'.infoHash).filterMap
        fun e => e.2.token.map fun token => (e.1, token)).map (·.1)).Nodup := by
      have hw : Map.WF (sortedNodes s'.nodes s'.infoHash) :=
        Map.wf_perm hi'.wf (sortedNodes_perm s'.nodes s'.infoHash).symm
      have hsub : (((sortedNodes s'.nodes s'.infoHash).filterMap
          fun e => e.2.token.map fun token => (e.1, token)).map (·.1)).Sublist
          ((sortedNodes s'.nodes s'.infoHash).map (·.1)) := by
        generalize sortedNodes s'.nodes s'.infoHash = l
        induction l with
        | nil => simp
        | cons y l ihl =>
          cases ht : y.2.token with
          | none => simpa [ht] using ihl.cons y.1
          | some t => simpa [ht] using ihl
      exact hw.sublist hsub
    refine ⟨?_, by simp [List.length_take]; omega, ?_, ?_, ?_, ?_⟩
    · intro _
      refine ⟨?_, hp'⟩
      cases hs with
      | tick => simp at hp'
      | timeout hp => exact ⟨_, hp⟩
      | answer hp => exact ⟨_, hp⟩
      | others => exact absurd rfl hne
      | pass => exact absurd rfl hne
      | reorder => exact absurd rfl hne
    · exact hnd.sublist ((List.take_sublist _ _).map _)
    · intro x hx
      rcases List.mem_append.mp hx with hx | hx
      · rw [hasked x hx, hi.infoHash]; exact .inl rfl
      · obtain ⟨n, token, _, _, h3⟩ := announce_mem hx
        rw [h3, hi'.infoHash, hi'.port]
        exact .inr ⟨token, rfl⟩
    · intro x hx
      obtain ⟨n, h1, h2⟩ := hmem x (List.mem_of_mem_take hx)
      exact ⟨_, hi'.token _ _ _ h1 h2⟩
    · refine List.Pairwise.sublist (List.take_sublist _ _) ?_
      have hcl : (sortedNodes s'.nodes s'.infoHash).Pairwise fun a b => worth a.2 ≤ worth b.2 :=
        hsorted.imp fun {a b} hp => by rcases hp with hp | hp <;> omega
      have hcl : ((sortedNodes s'.nodes s'.infoHash).filterMap
          fun e => e.2.token.map fun token => (e.1, token)).Pairwise fun x y =>
          ∀ n k, s'.nodes.get? x.1 = some n → s'.nodes.get? y.1 = some k → worth n ≤ worth k := by
        rw [List.pairwise_filterMap]
        refine (List.Pairwise.and_mem.mp hcl).imp ?_
        rintro a b ⟨ha, hb, hab⟩ x hx y hy n k hn hk
        simp only [Option.map_eq_some_iff] at hx hy
        obtain ⟨_, _, rfl⟩ := hx
        obtain ⟨_, _, rfl⟩ := hy
        have h1 := Map.get?_of_mem hi'.wf ((sortedNodes_perm s'.nodes s'.infoHash).mem_iff.mp ha)
        have h2 := Map.get?_of_mem hi'.wf ((sortedNodes_perm s'.nodes s'.infoHash).mem_iff.mp hb)
        simp only at hn hk
        rw [h1, Option.some.injEq] at hn
        rw [h2, Option.some.injEq] at hk
        subst hn hk
        exact hab
      refine (List.Pairwise.and_mem.mp hcl).imp ?_
      rintro x y ⟨hx, hy, hxy⟩ hl
      obtain ⟨n, hn1, hn2⟩ := hmem x hx
      obtain ⟨k, hk1, hk2⟩ := hmem y hy
      have := hxy n k hn1 hk1
      have hl' := hi'.token _ _ _ hk1 hk2
      rw [hl, Option.some.injEq, Prod.mk.injEq] at hl'
      have hk0 : worth k = 0 := by simpa using hl'.2.symm
      rw [hi'.token _ _ _ hn1 hn2]
      simp only [Option.some.injEq, Prod.mk.injEq, true_and, decide_eq_true_eq]
      omega
  · refine ⟨by simp [announcements], by simp [announcements], by simp [announcements], ?_, by simp [announcements],
      by simp [announcements]⟩
    intro x hx
    rw [List.append_nil] at hx
    rw [hasked x hx, hi.infoHash]
    exact .inl rfl

/-- C79: when a lookup ends, every node of the working set with a token is announced to, unless 16 others were that are
preferred. -/
theorem C79_best (pause : Nat → Nat) (ih : ID) (port : U16) (init : List Node) (peers : Peers) (now : Nat)
    (h : List Entry) (s s' : Fetcher) (e : Entry) (hr : Run pause (start ih port init peers now) h s)
    (hs : Step pause s e s') (t t' : Nat) (hp : s.phase = .fetching t) (hp' : s'.phase = .sleeping t')
    (a : SockAddr) (n : Close) (token : Bytes) (ha : s'.nodes.get? a = some n)
    (ht : givenToken n = some token) :
    (a, token) ∈ announcements e.sent ∨
    ((announcements e.sent).length = 16 ∧
      ∀ x ∈ announcements e.sent, ∃ m, s'.nodes.get? x.1 = some m ∧ givenToken m = some x.2 ∧ Preferred ih m n) := by
  simp only [← Close.token_eq] at ht ⊢
  have hi' := (Inv.run hr).step hs
  obtain ⟨asked, said, hsent, hasked, hsaid⟩ := step_sent hs
  rw [hsent, announcements_append, announcements_asked hasked, List.nil_append]
  rcases hsaid with ⟨_, _, rfl⟩ | ⟨rfl, ⟨x, h1⟩ | h1⟩
  · rw [announcements_said]
    have hsorted := sortedNodes_sorted s'.nodes s'.infoHash
    have hfl : ((sortedNodes s'.nodes s'.infoHash).filterMap
        fun e => e.2.token.map fun token => (e.1, token)).Pairwise fun x y =>
        ∀ n k, s'.nodes.get? x.1 = some n → s'.nodes.get? y.1 = some k → Preferred ih n k := by
      rw [List.pairwise_filterMap]
      refine (List.Pairwise.and_mem.mp hsorted).imp ?_
      rintro a b ⟨ha, hb, hab⟩ x hx y hy n k hn hk
      simp only [Option.map_eq_some_iff] at hx hy
      obtain ⟨_, _, rfl⟩ := hx
      obtain ⟨_, _, rfl⟩ := hy
      have h1 := Map.get?_of_mem hi'.wf ((sortedNodes_perm s'.nodes s'.infoHash).mem_iff.mp ha)
      have h2 := Map.get?_of_mem hi'.wf ((sortedNodes_perm s'.nodes s'.infoHash).mem_iff.mp hb)
      simp only at hn hk
      rw [h1, Option.some.injEq] at hn
      rw [h2, Option.some.injEq] at hk
      subst hn hk
      rw [← hi'.infoHash]
      exact hab
    have hain : (a, token) ∈ (sortedNodes s'.nodes s'.infoHash).filterMap
        fun e => e.2.token.map fun token => (e.1, token) := by
      simp only [List.mem_filterMap, Option.map_eq_some_iff]
      exact ⟨(a, n), (sortedNodes_perm s'.nodes s'.infoHash).mem_iff.mpr (Map.mem_of_get? ha), token, ht, rfl⟩
    have hmem : ∀ x ∈ ((sortedNodes s'.nodes s'.infoHash).filterMap fun e => e.2.token.map fun token => (e.1, token)),
        ∃ n, s'.nodes.get? x.1 = some n ∧ n.token = some x.2 := by
      intro x hx
      simp only [List.mem_filterMap, Option.map_eq_some_iff] at hx
      obtain ⟨y, hy, t, ht, rfl⟩ := hx
      exact ⟨y.2, Map.get?_of_mem hi'.wf ((sortedNodes_perm s'.nodes s'.infoHash).mem_iff.mp hy), ht⟩
    generalize (sortedNodes s'.nodes s'.infoHash).filterMap
      (fun e => e.2.token.map fun token => (e.1, token)) = l at *
    rw [← List.take_append_drop 16 l] at hain
    rcases List.mem_append.mp hain with hain | hain
    · exact .inl hain
    · refine .inr ⟨?_, ?_⟩
      · have : (List.drop 16 l).length ≠ 0 := by intro h0; rw [List.length_eq_zero_iff] at h0; rw [h0] at hain; simp at hain
        rw [List.length_drop] at this
        rw [List.length_take]; omega
      · intro x hx
        obtain ⟨m, hm1, hm2⟩ := hmem x (List.mem_of_mem_take hx)
        refine ⟨m, hm1, hm2, ?_⟩
        rw [← List.take_append_drop 16 l, List.pairwise_append] at hfl
        exact hfl.2.2 x hx _ hain m n hm1 ha
  · rw [hp'] at h1; simp at h1
  · rw [hp', hp] at h1; simp at h1

/-! ## C80 -/

/-- C80: the working set never has 512 nodes or more between events, if it starts with fewer. -/
theorem C80_bounded (pause : Nat → Nat) (ih : ID) (port : U16) (init : List Node) (peers : Peers) (now : Nat)
    (h : List Entry) (s : Fetcher) (hr : Run pause (start ih port init peers now) h s) (hl : init.length < 512) :
    s.nodes.length < 512 := by
  generalize hs0 : Fetch.start ih port init peers now = s0 at hr
  induction hr with
  | nil =>
    subst hs0
    have : ∀ (l : List Node) (m : NodeMap),
        (l.foldl (fun m n => m.insert n.addr (Close.unknown n.id)) m : NodeMap).length ≤ m.length + l.length := by
      intro l
      induction l with
      | nil => intro m; simp
      | cons x xs ihx =>
        intro m
        refine Nat.le_trans (ihx _) ?_
        rw [Map.length_insert, List.length_cons]
        split <;> omega
    have := this init []
    simp only [Fetch.start]
    simp only [List.length_nil] at this
    omega
  | @snoc s s' h e hr hs ihr =>
    have hi := Inv.run (hs0 ▸ hr)
    cases hs with
    | tick => exact ihr
    | timeout => exact ihr
    | others => exact ihr
    | pass => exact ihr
    | reorder hp => rw [← hp.length_eq]; exact ihr
    | @answer since r hp =>
      by_cases ha : s.accepts r = true
      · rw [(receive_accepted ha).1]
        exact cut_length _ (answer_wf hi.wf r) _
      · have ha : s.accepts r = false := by simpa using ha
        rw [receive_ignored ha]; exact ihr

/-- C80: after an answer of a node of the working set, the set is what the answer makes of it; if that has 512 nodes or
more, 128 of them remain and no preferred node is dropped. No other event changes the set. -/
theorem C80_cut (pause : Nat → Nat) (ih : ID) (port : U16) (init : List Node) (peers : Peers) (now : Nat)
    (h : List Entry) (s s' : Fetcher) (e : Entry) (hr : Run pause (start ih port init peers now) h s)
    (hs : Step pause s e s') :
    (∀ sender token vn, e.event = .answer (.getPeers sender token vn) → sender ∈ s.nodes.keys →
      ∃ grown : NodeMap, grown.WF ∧ (∀ a, grown.get? a = afterAnswer s.nodes.get? sender token vn a) ∧
        (grown.length < 512 → ∀ a, s'.nodes.get? a = grown.get? a) ∧
        (512 ≤ grown.length → s'.nodes.length = 128 ∧
          ∀ a n, s'.nodes.get? a = some n → grown.get? a = some n ∧
            ∀ b k, grown.get? b = some k → s'.nodes.get? b = none → Preferred ih n k)) ∧
    ((∀ sender token vn, e.event = .answer (.getPeers sender token vn) → sender ∉ s.nodes.keys) →
      ∀ a, s'.nodes.get? a = s.nodes.get? a) := by
  have hi := Inv.run hr
  cases hs with
  | tick => exact ⟨by simp, fun _ _ => rfl⟩
  | timeout => exact ⟨by simp, fun _ _ => rfl⟩
  | others => exact ⟨by simp, fun _ _ => rfl⟩
  | pass => exact ⟨by simp, fun _ _ => rfl⟩
  | reorder hp => exact ⟨by simp, fun _ a => (Map.get?_perm hi.wf hp a).symm⟩
  | @answer since r hp =>
    constructor
    · intro sender token vn he hk
      simp only [Event.answer.injEq] at he
      subst he
      have ha : s.accepts (.getPeers sender token vn) = true := by
        simp only [Fetcher.accepts]; exact Map.contains_iff.mpr hk
      have hw := answer_wf hi.wf (.getPeers sender token vn)
      refine ⟨(s.answer (.getPeers sender token vn)).1.nodes, hw, answer_get s sender token vn, ?_, ?_⟩
      · intro hl a
        rw [(receive_accepted ha).1]
        simp only [cut, show ¬ (s.answer (.getPeers sender token vn)).1.nodes.length ≥ 512 by omega, if_false]
      · intro hl
        rw [(receive_accepted ha).1]
        simp only [cut, ge_iff_le, hl, if_true]
        obtain ⟨f1, f2, f3, f4⟩ := forget_spec hw s.infoHash
        refine ⟨by rw [f2]; omega, ?_⟩
        intro a n hg
        have hm := Map.mem_of_get? hg
        refine ⟨Map.get?_of_mem hw (f3 _ hm), ?_⟩
        intro b k hb hbn
        rw [← hi.infoHash]
        refine f4 _ hm (b, k) (Map.mem_of_get? hb) ?_
        intro hin
        rw [Map.get?_of_mem f1 hin] at hbn
        simp at hbn
    · intro hn a
      have ha : s.accepts r = false := by
        cases r with
        | touch => rfl
        | newNodes => rfl
        | getPeers sender token vn =>
          have := hn sender token vn rfl
          simp only [Fetcher.accepts]
          rw [← Bool.not_eq_true, Map.contains_iff]
          exact this
      rw [receive_ignored ha]

/-! ## C81 -/

/-- C81: an answer of a node that was never asked changes nothing and leads to no query; the same holds for answers to
other queries. -/
theorem C81_unsolicited (pause : Nat → Nat) (ih : ID) (port : U16) (init : List Node) (peers : Peers) (now : Nat)
    (h : List Entry) (s s' : Fetcher) (e : Entry) (r : FromConResp)
    (hr : Run pause (start ih port init peers now) h s) (hs : Step pause s e s') (he : e.event = .answer r)
    (hq : ∀ sender token vn, r = .getPeers sender token vn → ¬ Queried h sender) :
    e.sent = [] ∧ s'.nodes = s.nodes ∧ s'.peers = s.peers := by
  have hi := Inv.run hr
  cases hs with
  | tick => simp at he
  | timeout => simp at he
  | others => simp at he
  | pass => simp at he
  | reorder => simp at he
  | @answer since r' hp =>
    simp only [Event.answer.injEq] at he
    subst he
    have ha : s.accepts r' = false := by
      rw [← Bool.not_eq_true]
      intro ha
      obtain ⟨sender, token, vn, node, rfl, hg⟩ := accepts_iff.mp ha
      exact hq sender token vn rfl (hi.queried (hi.fetching _ hp) _ _ hg)
    rw [receive_ignored ha]
    exact ⟨rfl, rfl, rfl⟩

/-- C81: a node is asked only once it was learned: it is one of the nodes the lookups began with or was named in an
answer of a node that had been asked. It is asked for peers of the own torrent, and announced to only if it was asked
before. -/
theorem C81_learned (pause : Nat → Nat) (ih : ID) (port : U16) (init : List Node) (peers : Peers) (now : Nat)
    (h : List Entry) (s s' : Fetcher) (e : Entry) (hr : Run pause (start ih port init peers now) h s)
    (hs : Step pause s e s') :
    (∀ x ∈ e.sent, Learned init (h ++ [e]) x.1) ∧ ∀ x ∈ announcements e.sent, Queried h x.1 := by
  have hi := Inv.run hr
  have hann : ∀ (m : NodeMap), (∀ a n t, m.get? a = some n → n.token = some t → Queried h a ∧ Learned init (h ++ [e]) a) →
      m.WF → ∀ p i, ∀ x ∈ announcePeer p i m, Learned init (h ++ [e]) x.1 ∧ Queried h x.1 := by
    intro m hm hw p i x hx
    obtain ⟨n, token, h1, h2, _⟩ := announce_mem hx
    have := hm x.1 n token (Map.get?_of_mem hw h1) h2
    exact ⟨this.2, this.1⟩
  have hsub : ∀ (l : List Sent) x, x ∈ announcements l → ∃ y ∈ l, y.1 = x.1 := by
    intro l x hx
    simp only [announcements, List.mem_filterMap] at hx
    obtain ⟨y, hy, h2⟩ := hx
    refine ⟨y, hy, ?_⟩
    split at h2
    · simp only [Option.some.injEq] at h2; rw [← h2]
    · simp at h2
  cases hs with
  | tick =>
    constructor
    · intro x hx
      simp only [Fetcher.askAll, List.mem_map] at hx
      obtain ⟨a, ha, rfl⟩ := hx
      obtain ⟨y, hy, rfl⟩ := List.mem_map.mp ha
      exact learned_snoc (hi.learned _ _ (Map.get?_of_mem hi.wf hy))
    · intro x hx
      rw [announcements_asked (ih := s.infoHash)] at hx
      · simp at hx
      · intro y hy
        simp only [Fetcher.askAll, List.mem_map] at hy
        obtain ⟨_, _, rfl⟩ := hy
        rfl
  | timeout hp =>
    have hm := hann s.nodes (fun a n t h1 _ => ⟨hi.queried (hi.fetching _ hp) a n h1, learned_snoc (hi.learned a n h1)⟩)
      hi.wf s.port s.infoHash
    refine ⟨fun x hx => (hm x hx).1, ?_⟩
    intro x hx
    obtain ⟨y, hy, h2⟩ := hsub _ x hx
    rw [← h2]
    exact (hm y hy).2
  | others => exact ⟨by simp, by simp [announcements]⟩
  | pass => exact ⟨by simp, by simp [announcements]⟩
  | reorder => exact ⟨by simp, by simp [announcements]⟩
  | @answer since r hp =>
    by_cases ha : s.accepts r = true
    · obtain ⟨sender, token, vn, node, rfl, hg⟩ := accepts_iff.mp ha
      have h0 := hi.fetching _ hp
      have hsq := hi.queried h0 sender node hg
      have hw := answer_wf hi.wf (.getPeers sender token vn)
      rw [(receive_accepted ha).2]
      rw [(receive_accepted ha).2] at hann
      have hm := hann (cut (s.answer (.getPeers sender token vn)).1.nodes s.infoHash) ?_ (cut_wf hw _) s.port s.infoHash
      · refine ⟨?_, ?_⟩
        · intro x hx
          rcases List.mem_append.mp hx with hx | hx
          · obtain ⟨ns, a, rfl, rfl, h1, h2⟩ := answer_sent hx
            exact learned_now rfl hsq h1
          · split at hx
            · exact (hm x hx).1
            · simp at hx
        · intro x hx
          rw [announcements_append, announcements_asked (ih := s.infoHash), List.nil_append] at hx
          · split at hx
            · obtain ⟨y, hy, h2⟩ := hsub _ x hx
              rw [← h2]
              exact (hm y hy).2
            · simp [announcements] at hx
          · intro y hy
            obtain ⟨_, _, _, rfl, _⟩ := answer_sent hy
            rfl
      · intro a n t hga ht
        have := cut_get hw _ hga
        rw [answer_get] at this
        have hkn : ∃ n', s.nodes.get? a = some n' := by
          simp only [afterAnswer, hg] at this
          by_cases hne : a = sender
          · subst hne; exact ⟨_, hg⟩
          · cases vn with
            | values => simp only [hne, if_false] at this; exact ⟨_, this⟩
            | nodes ns =>
              simp only [hne, if_false] at this
              split at this
              · rename_i n' hn'; exact ⟨_, hn'⟩
              · simp only [Option.map_eq_some_iff] at this
                obtain ⟨_, _, rfl⟩ := this
                simp [Close.token] at ht
        obtain ⟨n', hn'⟩ := hkn
        exact ⟨hi.queried h0 a n' hn', learned_snoc (hi.learned a n' hn')⟩
    · have ha : s.accepts r = false := by simpa using ha
      rw [receive_ignored ha]
      exact ⟨by simp, by simp [announcements]⟩

theorem requests_append (a b : List Sent) : requests (a ++ b) = requests a ++ requests b := by
  simp [requests]

theorem requests_announce (p : U16) (i : ID) (m : NodeMap) : requests (announcePeer p i m) = [] := by
  simp only [requests, List.filterMap_eq_nil_iff]
  intro x hx
  obtain ⟨_, _, _, _, h⟩ := announce_mem hx
  rw [h]

theorem requests_asked {l : List Sent} {ih : ID} (h : ∀ x ∈ l, x.2 = .getPeers ih) : requests l = l.map (·.1) := by
  induction l with
  | nil => rfl
  | cons x l ihl =>
    have h1 := h x (by simp)
    have h2 := ihl fun y hy => h y (by simp [hy])
    simp only [requests] at h2 ⊢
    rw [List.filterMap_cons]
    simp [h1, h2]

/-- C81: an answer of a node of the working set that names nodes leads to one request to each address it names that is
not in the working set, and an answer with peers to none. At the beginning of a lookup each node of the working set is
asked once. Nothing else leads to requests. -/
theorem C81_asked_once (pause : Nat → Nat) (ih : ID) (port : U16) (init : List Node) (peers : Peers) (now : Nat)
    (h : List Entry) (s s' : Fetcher) (e : Entry) (hr : Run pause (start ih port init peers now) h s)
    (hs : Step pause s e s') :
    (requests e.sent).Nodup ∧ ∀ a, a ∈ requests e.sent ↔
      (e.event = .tick ∧ a ∈ s.nodes.keys) ∨
      ∃ sender token ns, e.event = .answer (.getPeers sender token (.nodes ns)) ∧ sender ∈ s.nodes.keys ∧
        a ∈ ns.list.map (·.addr) ∧ a ∉ s.nodes.keys := by
  have hi := Inv.run hr
  have hk : ∀ a, a ∈ s.nodes.keys ↔ ∃ n, s.nodes.get? a = some n := by
    intro a
    rw [← Map.contains_iff, Map.contains, Option.isSome_iff_exists]
  cases hs with
  | tick =>
    have : requests s.askAll = s.nodes.keys := by
      rw [requests_asked (ih := s.infoHash)]
      · simp only [Fetcher.askAll, List.map_map]; exact List.map_id _
      · intro y hy
        simp only [Fetcher.askAll, List.mem_map] at hy
        obtain ⟨_, _, rfl⟩ := hy
        rfl
    rw [this]
    exact ⟨hi.wf, by simp⟩
  | timeout => simp only [Fetcher.finish, requests_announce]; exact ⟨by simp, by simp⟩
  | others => exact ⟨by simp [requests], by simp [requests]⟩
  | pass => exact ⟨by simp [requests], by simp [requests]⟩
  | reorder => exact ⟨by simp [requests], by simp [requests]⟩
  | @answer since r hp =>
    by_cases ha : s.accepts r = true
    · obtain ⟨sender, token, vn, node, rfl, hg⟩ := accepts_iff.mp ha
      rw [(receive_accepted ha).2, requests_append]
      have hz : requests (if (decide ((s.answer (.getPeers sender token vn)).1.nodes.length ≥ 512) &&
          (s.answer (.getPeers sender token vn)).1.peers.enoughPeers.2) = true then
          announcePeer s.port s.infoHash (cut (s.answer (.getPeers sender token vn)).1.nodes s.infoHash) else []) = [] := by
        split
        · exact requests_announce _ _ _
        · rfl
      simp only at hz ⊢
      rw [hz, List.append_nil, requests_asked (ih := s.infoHash)
        (fun y hy => by obtain ⟨_, _, _, rfl, _⟩ := answer_sent hy; rfl)]
      constructor
      · simp only [Fetcher.answer, hg]
        cases vn with
        | values => simp
        | nodes ns => exact newNodes_nodup _ _ _
      · intro a
        simp only [reduceCtorEq, false_and, false_or, Event.answer.injEq, FromConResp.getPeers.injEq]
        constructor
        · intro hx
          obtain ⟨y, hy, rfl⟩ := List.mem_map.mp hx
          obtain ⟨ns, b, rfl, rfl, h1, h2⟩ := answer_sent hy
          refine ⟨sender, token, ns, ⟨rfl, rfl, rfl⟩, (hk _).mpr ⟨_, hg⟩, h1, ?_⟩
          rw [hk]; rintro ⟨n, hn⟩; simp only at hn; rw [h2] at hn; simp at hn
        · rintro ⟨_, _, ns, ⟨rfl, rfl, rfl⟩, _, h1, h2⟩
          have hnone : s.nodes.get? a = none := by
            cases hn : s.nodes.get? a with
            | none => rfl
            | some n => exact absurd ((hk a).mpr ⟨n, hn⟩) h2
          have hne : a ≠ sender := by rintro rfl; rw [hg] at hnone; simp at hnone
          refine List.mem_map.mpr ⟨(a, .getPeers s.infoHash), ?_, rfl⟩
          simp only [Fetcher.answer, hg]
          refine (newNodes_sent _ _ _ _).mpr ⟨a, rfl, h1, ?_⟩
          rw [Map.get?_insert]
          simp [hne, hnone]
    · have ha : s.accepts r = false := by simpa using ha
      rw [receive_ignored ha]
      refine ⟨by simp [requests], ?_⟩
      intro a
      simp only [requests, List.filterMap_nil, List.not_mem_nil, reduceCtorEq, false_and, false_or, false_iff,
        Event.answer.injEq]
      rintro ⟨sender, token, ns, rfl, h1, _⟩
      rw [← Map.contains_iff] at h1
      simp [Fetcher.accepts, h1] at ha

theorem run_peers_wf {pause : Nat → Nat} {s0 s : Fetcher} {h : List Entry} (hr : Run pause s0 h s)
    (hw : s0.peers.data.WF) : s.peers.data.WF := by
  induction hr with
  | nil => exact hw
  | @snoc s s' h e hr hs ihr =>
    cases hs with
    | tick => exact ihr
    | timeout => exact ihr
    | others hp => exact Peers.step_wf hp ihr
    | pass => exact ihr
    | reorder => exact ihr
    | @answer since r hp =>
      by_cases ha : s.accepts r = true
      · obtain ⟨sender, token, vn, node, rfl, hg⟩ := accepts_iff.mp ha
        rw [(receive_accepted ha).1]
        have : (s.answer (.getPeers sender token vn)).1.peers.data.WF := by
          simp only [Fetcher.answer, hg]
          cases vn with
          | values vs => exact Peers.step_wf (.extend (ps := vs)) ihr
          | nodes => exact ihr
        simp only
        split
        · exact Peers.step_wf .enough this
        · exact this
      · have ha : s.accepts r = false := by simpa using ha
        rw [receive_ignored ha]
        exact ihr

/-- C81: the peers in an answer of a node of the working set become known, and no other event of the lookup makes peers
known. -/
theorem C81_peers (pause : Nat → Nat) (ih : ID) (port : U16) (init : List Node) (ops : List Peers.Op) (peers : Peers)
    (hpeers : Peers.Run (.new ih) ops peers) (now : Nat)
    (h : List Entry) (s s' : Fetcher) (e : Entry) (hr : Run pause (start ih port init peers now) h s)
    (hs : Step pause s e s') (hno : ∀ op, e.event ≠ .others op) (p : Peer) :
    p ∈ s'.peers.peerAddresses ↔ p ∈ s.peers.peerAddresses ∨
      ∃ sender token values, e.event = .answer (.getPeers sender token (.values values)) ∧ sender ∈ s.nodes.keys ∧
        p ∈ values := by
  have hw := run_peers_wf hr (Peers.run_wf hpeers (by simp [Peers.new, Map.WF, Map.keys]))
  have hk : ∀ a, a ∈ s.nodes.keys ↔ ∃ n, s.nodes.get? a = some n := by
    intro a
    rw [← Map.contains_iff, Map.contains, Option.isSome_iff_exists]
  cases hs with
  | tick => simp
  | timeout => simp [Fetcher.finish]
  | others => exact absurd rfl (hno _)
  | pass => simp
  | reorder => simp
  | @answer since r hp =>
    by_cases ha : s.accepts r = true
    · obtain ⟨sender, token, vn, node, rfl, hg⟩ := accepts_iff.mp ha
      rw [(receive_accepted ha).1]
      have hens : ∀ q : Peers, q.data.WF → q.enoughPeers.1.peerAddresses = q.peerAddresses := by
        intro q hq
        simp only [Peers.peerAddresses, Peers.enoughPeers]
        rw [(good_eq hq (2 ^ 64 - 1)).choose_spec.2.2.2.1]
      have hpw : (s.answer (.getPeers sender token vn)).1.peers.data.WF := by
        simp only [Fetcher.answer, hg]
        cases vn with
        | values vs => exact Peers.step_wf (.extend (ps := vs)) hw
        | nodes => exact hw
      have hite : ∀ c : Prop, ∀ _ : Decidable c, (if c then (s.answer (.getPeers sender token vn)).1.peers.enoughPeers.1
          else (s.answer (.getPeers sender token vn)).1.peers).peerAddresses =
          (s.answer (.getPeers sender token vn)).1.peers.peerAddresses := by
        intro c _
        split
        · exact hens _ hpw
        · rfl
      simp only at hite ⊢
      rw [hite]
      simp only [Fetcher.answer, hg, Event.answer.injEq, FromConResp.getPeers.injEq]
      cases vn with
      | nodes ns => simp
      | values vs =>
        simp only [ValuesOrNodes.values.injEq]
        have hext := Peers.extend_get? s.peers.data vs p
        constructor
        · intro hp
          obtain ⟨st, hst⟩ := Peers.status_of_mem hp
          simp only [Peers.extend] at hst
          rw [hext] at hst
          split at hst
          · rename_i hin
            exact .inr ⟨sender, token, vs, ⟨rfl, rfl, rfl⟩, (hk _).mpr ⟨_, hg⟩, hin⟩
          · exact .inl (Peers.mem_of_status hst)
        · rintro (hp | ⟨_, _, vs', ⟨rfl, rfl, rfl⟩, _, hin⟩)
          · obtain ⟨st, hst⟩ := Peers.status_of_mem hp
            split at hext
            · exact Peers.mem_of_status hext
            · rw [hst] at hext; exact Peers.mem_of_status hext
          · rw [if_pos hin] at hext; exact Peers.mem_of_status hext
    · have ha : s.accepts r = false := by simpa using ha
      rw [receive_ignored ha]
      simp only [Event.answer.injEq]
      constructor
      · exact .inl
      · rintro (hp | ⟨sender, token, vs, rfl, h1, _⟩)
        · exact hp
        · rw [← Map.contains_iff] at h1
          simp [Fetcher.accepts, h1] at ha

/-! ## C96 -/

/-- C96 (partial): a lookup during which no answer arrives for three seconds ends, or can end at once; and the next one
begins, or can begin at once, when the pause is over. What is missing: answers that keep arriving keep the lookup from
ending (`C96_unbounded_violated`). -/
theorem C96_quiet_partial (pause : Nat → Nat) (s s' : Fetcher) (h : List Entry) (hr : Run pause s h s') :
    (∀ t, s.phase = .fetching t → (∀ e ∈ h, ¬ IsAnswer e) → t + 3000 ≤ s'.now →
      (∃ e ∈ h, e.event = .timeout) ∨
      Step pause s' ⟨.timeout, announcePeer s'.port s'.infoHash s'.nodes⟩ { s' with phase := .sleeping s'.now }) ∧
    (∀ t, s.phase = .sleeping t → t + pause s.rounds ≤ s'.now →
      (∃ e ∈ h, e.event = .tick) ∨ ∃ e s'', Step pause s' e s'' ∧ e.event = .tick) := by
  have h1 : ∀ t, s.phase = .fetching t → (∀ e ∈ h, ¬ IsAnswer e) →
      (∃ e ∈ h, e.event = .timeout) ∨ s'.phase = .fetching t := by
    intro t hp
    induction hr with
    | nil => intro _; exact .inr hp
    | @snoc s1 s2 h e hr hs ihr =>
      intro hno
      rcases ihr (fun e he => hno e (by simp [he])) with ⟨x, hx, h2⟩ | h2
      · exact .inl ⟨x, by simp [hx], h2⟩
      · cases hs with
        | tick hp' => rw [h2] at hp'; simp at hp'
        | timeout => exact .inl ⟨_, List.mem_append_right _ (List.mem_singleton.mpr rfl), rfl⟩
        | others => exact .inr h2
        | pass => exact .inr h2
        | reorder => exact .inr h2
        | answer => exact absurd ⟨_, rfl⟩ (hno _ (List.mem_append_right _ (List.mem_singleton.mpr rfl)))
  have h2 : ∀ t, s.phase = .sleeping t →
      (∃ e ∈ h, e.event = .tick) ∨ (s'.phase = .sleeping t ∧ s'.rounds = s.rounds) := by
    intro t hp
    clear h1
    induction hr with
    | nil => exact .inr ⟨hp, rfl⟩
    | @snoc s1 s2 h e hr hs ihr =>
      rcases ihr with ⟨x, hx, h2⟩ | ⟨h2, h3⟩
      · exact .inl ⟨x, by simp [hx], h2⟩
      · cases hs with
        | tick => exact .inl ⟨_, List.mem_append_right _ (List.mem_singleton.mpr rfl), rfl⟩
        | timeout hp' => rw [h2] at hp'; simp at hp'
        | others => exact .inr ⟨h2, h3⟩
        | pass => exact .inr ⟨h2, h3⟩
        | reorder => exact .inr ⟨h2, h3⟩
        | answer hp' => rw [h2] at hp'; simp at hp'
  constructor
  · intro t hp hno ht
    rcases h1 t hp hno with h | h
    · exact .inl h
    · exact .inr (.timeout h ht)
  · intro t hp ht
    rcases h2 t hp with h | ⟨h, h3⟩
    · exact .inl h
    · exact .inr ⟨_, _, .tick h (by rw [h3]; exact ht), rfl⟩

/-- C96: lookups are paced: when every pause is at least `least`, the number of lookups begun is at most the time
elapsed divided by `least`. -/
theorem C96_paced (pause : Nat → Nat) (least : Nat) (hl : ∀ n, least ≤ pause n) (ih : ID) (port : U16) (init : List Node)
    (peers : Peers) (now : Nat) (h : List Entry) (s : Fetcher) (hr : Run pause (start ih port init peers now) h s) :
    now + least * (h.countP fun e => match e.event with | .tick => true | _ => false) ≤ s.now := by
  suffices hh : ∀ t, (s.phase = .sleeping t ∨ s.phase = .fetching t) →
      now + least * (h.countP fun e => match e.event with | .tick => true | _ => false) ≤ t ∧ t ≤ s.now by
    rcases hp : s.phase with t | t
    · exact Nat.le_trans (hh t (.inl hp)).1 (hh t (.inl hp)).2
    · exact Nat.le_trans (hh t (.inr hp)).1 (hh t (.inr hp)).2
  generalize hs0 : Fetch.start ih port init peers now = s0 at hr
  induction hr with
  | nil =>
    subst hs0
    intro t ht
    simp only [Fetch.start, Phase.sleeping.injEq, reduceCtorEq, or_false] at ht
    subst ht
    simp [Fetch.start]
  | @snoc s1 s2 h e hr hs ihr =>
    intro t ht
    rw [List.countP_append, List.countP_singleton]
    cases hs with
    | tick hp htk =>
      simp only [reduceCtorEq, Phase.fetching.injEq, false_or] at ht
      subst ht
      have := ihr _ (.inl hp)
      have := hl s1.rounds
      simp only [if_true, Nat.mul_add]
      omega
    | timeout hp htk =>
      simp only [Fetcher.finish, reduceCtorEq, Phase.sleeping.injEq, or_false] at ht
      subst ht
      have := ihr _ (.inr hp)
      simp [Fetcher.finish]
      omega
    | others => have := ihr t ht; simpa using this
    | pass => have := ihr t ht; simp; omega
    | reorder => have := ihr t ht; simpa using this
    | @answer since r hp =>
      have hb := ihr _ (.inr hp)
      have key : (s1.receive r).1.now = s1.now ∧
          ((s1.receive r).1.phase = .sleeping s1.now ∨ (s1.receive r).1.phase = .fetching s1.now) := by
        by_cases ha : s1.accepts r = true
        · rw [(receive_accepted ha).1]
          refine ⟨rfl, ?_⟩
          simp only
          split
          · exact .inl rfl
          · exact .inr rfl
        · have ha : s1.accepts r = false := by simpa using ha
          rw [receive_ignored ha]
          exact ⟨rfl, .inr rfl⟩
      have : t = s1.now := by
        rcases key.2 with hk | hk <;> rw [hk] at ht <;> simp at ht <;> exact ht.symm
      rw [this, key.1]
      simp
      omega

theorem answersOf_append (a : SockAddr) (h1 h2 : List Entry) :
    answersOf a (h1 ++ h2) = answersOf a h1 + answersOf a h2 := List.countP_append

theorem requestsTo_append (a : SockAddr) (h1 h2 : List Entry) :
    requestsTo a (h1 ++ h2) = requestsTo a h1 + requestsTo a h2 := by simp [requestsTo]

theorem askAll_requests {s : Fetcher} {a : SockAddr} {n : Close} (ha : s.nodes.get? a = some n) :
    1 ≤ (requests s.askAll).count a := by
  have : requests s.askAll = s.nodes.keys := by
    rw [requests_asked (ih := s.infoHash)]
    · simp only [Fetcher.askAll, List.map_map]; exact List.map_id _
    · intro y hy
      simp only [Fetcher.askAll, List.mem_map] at hy
      obtain ⟨_, _, rfl⟩ := hy
      rfl
  rw [this]
  exact List.count_pos_iff.mpr (List.mem_map.mpr ⟨_, Map.mem_of_get? ha, rfl⟩)

/-- Any number of lookups that nobody answers. -/
theorem silent_rounds (pause : Nat → Nat) (s0 : Fetcher) (t : Nat) (hp : s0.phase = .sleeping t) (ht : t ≤ s0.now)
    (a : SockAddr) (n : Close) (ha : s0.nodes.get? a = some n) (k : Nat) :
    ∃ h s, Run pause s0 h s ∧ (∃ t, s.phase = .sleeping t ∧ t ≤ s.now) ∧ s.nodes = s0.nodes ∧ answersOf a h = 0 ∧
      k ≤ requestsTo a h := by
  induction k with
  | zero => exact ⟨[], s0, .nil, ⟨t, hp, ht⟩, rfl, rfl, Nat.zero_le _⟩
  | succ k ihk =>
    obtain ⟨h, s, hr, ⟨t', hp', ht'⟩, hn, h1, h2⟩ := ihk
    have r1 := hr.snoc (.pass (d := pause s.rounds))
    have r2 := r1.snoc (.tick (since := t') hp' (by simp only; omega))
    have r3 := r2.snoc (.pass (d := 3000))
    have r4 := r3.snoc (.timeout rfl (Nat.le_refl _))
    refine ⟨_, _, r4, ⟨_, rfl, Nat.le_refl _⟩, hn, ?_, ?_⟩
    · simp only [answersOf_append, h1]
      simp [answersOf, answerFrom]
    · simp only [requestsTo_append]
      have : requestsTo a [⟨.tick, ({ s with now := s.now + pause s.rounds } : Fetcher).askAll⟩] ≥ 1 := by
        simp only [requestsTo, List.map_cons, List.map_nil, List.sum_cons, List.sum_nil, Nat.add_zero]
        exact askAll_requests (n := n) (by simp only [hn]; exact ha)
      omega

/-- Answers without peers, each just before the time is over. -/
theorem slow_answers (pause : Nat → Nat) (s0 : Fetcher) (hp : s0.phase = .fetching s0.now) (a : SockAddr)
    (ha : a ∈ s0.nodes.keys) (hl : s0.nodes.length < 512) (k : Nat) :
    ∃ h s, Run pause s0 h s ∧ s.phase = .fetching s.now ∧ s.now = s0.now + 2999 * k ∧ a ∈ s.nodes.keys ∧
      s.nodes.length < 512 ∧ (∀ e ∈ h, e.sent = []) ∧ answersOf a h = k := by
  induction k with
  | zero => exact ⟨[], s0, .nil, hp, rfl, ha, hl, by simp, rfl⟩
  | succ k ihk =>
    obtain ⟨h, s, hr, hp', hnow, ha', hl', hsent, hans⟩ := ihk
    have r1 := hr.snoc (.pass (d := 2999))
    have r2 := r1.snoc (.answer (r := .getPeers a [] (.values [])) (by simp only; exact hp'))
    have hacc : ({ s with now := s.now + 2999 } : Fetcher).accepts (.getPeers a [] (.values [])) = true :=
      Map.contains_iff.mpr ha'
    obtain ⟨e1, e2⟩ := receive_accepted hacc
    obtain ⟨_, _, _, n, heq, hg⟩ := accepts_iff.mp hacc
    simp only [FromConResp.getPeers.injEq] at heq
    obtain ⟨rfl, _, _⟩ := heq
    have hlen : (({ s with now := s.now + 2999 } : Fetcher).answer (.getPeers a [] (.values []))).1.nodes.length < 512 := by
      simp only [Fetcher.answer]
      simp only at hg
      simp only [hg]
      rw [Map.length_insert, if_pos ha']
      exact hl'
    have hge : ¬ (({ s with now := s.now + 2999 } : Fetcher).answer (.getPeers a [] (.values []))).1.nodes.length ≥ 512 := by
      omega
    simp only [cut, hge, if_false, decide_false, Bool.false_and, Bool.false_eq_true, List.append_nil] at e1 e2
    have e3 : (({ s with now := s.now + 2999 } : Fetcher).answer (.getPeers a [] (.values []))).2 = [] := by
      simp only [Fetcher.answer]
      simp only at hg
      simp only [hg]
    have e4 : a ∈ (({ s with now := s.now + 2999 } : Fetcher).answer (.getPeers a [] (.values []))).1.nodes.keys := by
      simp only [Fetcher.answer]
      simp only at hg
      simp only [hg]
      exact Map.mem_keys_insert.mpr (.inl rfl)
    rw [e3] at e2
    refine ⟨_, _, r2, ?_, ?_, ?_, ?_, ?_, ?_⟩
    · rw [e1]
    · rw [e1]; simp only [hnow]; omega
    · rw [e1]; exact e4
    · rw [e1]; exact hlen
    · intro e he
      simp only [List.mem_append, List.mem_singleton] at he
      rcases he with (he | rfl) | rfl
      · exact hsent e he
      · rfl
      · exact e2
    · simp only [answersOf_append, hans]
      simp [answersOf, answerFrom]

/-- C96 is violated: there is no bound on how long a lookup takes and no announcement is made, even if every answer
answers a request of its own. Every answer restarts the timer, so a node that leaves `n` requests unanswered can
prolong a later lookup by 2999 milliseconds `n` times. -/
theorem C96_unbounded_violated (pause : Nat → Nat) (ih : ID) (port : U16) (node : Node) (peers : Peers) (now n : Nat) :
    ∃ h1 h2 s1 s2, Run pause (start ih port [node] peers now) h1 s1 ∧ s1.phase = .fetching s1.now ∧
      Run pause s1 h2 s2 ∧ s2.phase = .fetching s2.now ∧ s2.now = s1.now + 2999 * n ∧ (∀ e ∈ h2, e.sent = []) ∧
      ∀ pre, pre <+: h1 ++ h2 → answersOf node.addr pre ≤ requestsTo node.addr pre := by
  have hg0 : (start ih port [node] peers now).nodes.get? node.addr = some (.unknown node.id) := by
    simp [start, Map.insert, Map.get?]
  obtain ⟨h, s, hr, ⟨t, hp, ht⟩, hn, ha, hq⟩ :=
    silent_rounds pause (start ih port [node] peers now) now rfl (Nat.le_refl _) node.addr _ hg0 n
  have r1 := hr.snoc (.pass (d := pause s.rounds))
  have r2 := r1.snoc (.tick (since := t) hp (by simp only; omega))
  have hkeys : node.addr ∈ s.nodes.keys := by
    rw [hn]; exact List.mem_map.mpr ⟨_, Map.mem_of_get? hg0, rfl⟩
  obtain ⟨h2, s2, q1, q2, q3, _, _, q4, q5⟩ := slow_answers pause
    { s with now := s.now + pause s.rounds, phase := .fetching (s.now + pause s.rounds), rounds := s.rounds + 1 } rfl
    node.addr hkeys (by simp only [hn]; simp [start, Map.insert]) n
  refine ⟨_, h2, _, s2, r2, rfl, q1, q2, q3, q4, ?_⟩
  have hz : answersOf node.addr ((h ++ [⟨.pass (pause s.rounds), []⟩]) ++
      [⟨.tick, ({ s with now := s.now + pause s.rounds } : Fetcher).askAll⟩]) = 0 := by
    simp only [answersOf_append, ha]
    simp [answersOf, answerFrom]
  intro pre hpre
  obtain ⟨rest, hrest⟩ := hpre
  rcases List.append_eq_append_iff.mp hrest with ⟨x, hx, _⟩ | ⟨x, hx, hx2⟩
  · rw [hx, answersOf_append] at hz
    omega
  · rw [hx, answersOf_append, requestsTo_append, hz]
    have hb : answersOf node.addr x ≤ n := by
      rw [← q5, hx2, answersOf_append]; omega
    have hc : n ≤ requestsTo node.addr ((h ++ [⟨.pass (pause s.rounds), []⟩]) ++
        [⟨.tick, ({ s with now := s.now + pause s.rounds } : Fetcher).askAll⟩]) := by
      simp only [requestsTo_append]; omega
    omega

/-! ## Examples -/

/-- Nodes for the examples. -/
def exNode (k : Byte) : Node := ⟨⟨List.replicate 20 k, by simp [ID_LEN]⟩, ⟨⟨10, 0, 0, k⟩, 6881⟩, none⟩

/-- A task that begins with node 1. -/
def exStart : Fetcher := start (exNode 0).id 51413 [exNode 1] (.new (exNode 0).id) 0

theorem queried_iff {h : List Entry} {a : SockAddr} : Queried h a ↔ a ∈ h.flatMap fun e => requests e.sent := by
  simp only [Queried, List.mem_flatMap, requests, List.mem_filterMap]
  constructor
  · rintro ⟨e, he, ih, hm⟩
    exact ⟨e, he, _, hm, rfl⟩
  · rintro ⟨e, he, x, hx, h2⟩
    refine ⟨e, he, ?_⟩
    split at h2
    · rename_i ih heq
      simp only [Option.some.injEq] at h2
      exact ⟨ih, by rw [← h2, ← heq]; exact hx⟩
    · simp at h2

/-- C79–C81 apply to a lookup in which node 1 names nodes 2 and 3 and itself, node 9 (which was not asked) names node 8
and node 2 returns a peer: nodes 2 and 3 are asked, the answer of node 9 has no effect, and in the end the client is
announced to node 2, then to node 1. -/
example : ∃ h s s', Run (fun _ => 7000) exStart h s ∧
    h.map (fun e => requests e.sent) =
      [[], [(exNode 1).addr], [(exNode 2).addr, (exNode 3).addr], [], [], []] ∧
    ¬ Queried h (exNode 9).addr ∧ Queried h (exNode 3).addr ∧ Learned [exNode 1] h (exNode 3).addr ∧
    Step (fun _ => 7000) s ⟨.timeout, announcePeer 51413 (exNode 0).id s.nodes⟩ s' ∧
    announcements (announcePeer 51413 (exNode 0).id s.nodes) = [((exNode 2).addr, [2]), ((exNode 1).addr, [1])] ∧
    s'.peers.peerAddresses = [⟨⟨⟨1, 2, 3, 4⟩, 80⟩⟩] := by
  have r1 := (Run.nil (pause := fun _ => 7000) (s := exStart)).snoc (.pass (d := 7000))
  have r2 := r1.snoc (.tick (since := 0) rfl (by decide))
  have r3 := r2.snoc (.answer (r := .getPeers (exNode 1).addr [1]
    (.nodes (.closest [exNode 2, exNode 3, exNode 1]))) rfl)
  have r4 := r3.snoc (.answer (r := .getPeers (exNode 9).addr [9] (.nodes (.closest [exNode 8]))) rfl)
  have r5 := r4.snoc (.answer (r := .getPeers (exNode 2).addr [2] (.values [⟨⟨⟨1, 2, 3, 4⟩, 80⟩⟩])) rfl)
  have r6 := r5.snoc (.pass (d := 3000))
  refine ⟨_, _, _, r6, by decide +kernel, ?_, ?_, ?_, .timeout rfl (by decide +kernel), by decide +kernel,
    by decide +kernel⟩
  · rw [queried_iff]; decide +kernel
  · rw [queried_iff]; decide +kernel
  · exact (Inv.run (init := [exNode 1]) r6).learned _ (.unknown (exNode 3).id) (by decide +kernel)

/-- An answer that names 512 addresses or more leaves 128 nodes. -/
theorem ex_many (l : List Node) (hnd : (l.map (·.addr)).Nodup) (hl : 512 ≤ l.length) :
    (exStart.receive (.getPeers (exNode 1).addr [1] (.nodes (.closest l)))).1.nodes.length = 128 := by
  have ha : exStart.accepts (.getPeers (exNode 1).addr [1] (.nodes (.closest l))) = true := rfl
  have hw := answer_wf (Inv.run (pause := fun _ => 0) (init := [exNode 1]) (.nil (s := exStart))).wf
    (.getPeers (exNode 1).addr [1] (.nodes (.closest l)))
  have hget := answer_get exStart (exNode 1).addr [1] (.nodes (.closest l))
  rw [(receive_accepted ha).1]
  simp only []
  generalize (exStart.answer (.getPeers (exNode 1).addr [1] (.nodes (.closest l)))).1.nodes = m at hw hget
  have hsub : l.map (·.addr) ⊆ m.keys := by
    intro a hm
    obtain ⟨n, hn, rfl⟩ := List.mem_map.mp hm
    have hs : (m.get? n.addr).isSome = true := by
      rw [hget]
      simp only [afterAnswer, show exStart.nodes.get? (exNode 1).addr = some (.unknown (exNode 1).id) from rfl]
      split
      · rfl
      · split
        · rfl
        · rw [Option.isSome_map, List.find?_isSome]
          exact ⟨n, hn, decide_eq_true rfl⟩
    obtain ⟨c, hc⟩ := Option.isSome_iff_exists.mp hs
    exact List.mem_map_of_mem (f := (·.1)) (Map.mem_of_get? hc)
  have hlen := (List.subperm_of_subset hnd hsub).length_le
  simp only [List.length_map, Map.keys] at hlen
  simp only [cut, show m.length ≥ 512 by omega, if_true]
  rw [(forget_spec hw _).2.1]
  omega

/-- C80 applies: an answer that names 515 nodes leaves 128. -/
example : (exStart.receive (.getPeers (exNode 1).addr [1]
      (.nodes (.closest ((List.range 515).map fun k =>
        ⟨(exNode 2).id, ⟨⟨10, 0, 1, 1⟩, BitVec.ofNat 16 k⟩, none⟩))))).1.nodes.length = 128 := by
  refine ex_many _ ?_ (by rw [List.length_map, List.length_range]; omega)
  rw [List.map_map]
  refine List.pairwise_map.mpr (List.Pairwise.imp_of_mem ?_ (List.nodup_range (n := 515)))
  intro a b ha hb hne he
  refine hne ?_
  simp only [Function.comp, SockAddr.mk.injEq, true_and] at he
  have := congrArg BitVec.toNat he
  simp only [BitVec.toNat_ofNat, List.mem_range] at this ha hb
  omega

/-- C96 applies: a lookup that begins is in its pause of 7 seconds; when they have passed it asks node 1, and when nothing came
for 3 seconds after that it is over. -/
example : ∃ h s, Run (fun _ => 7000) exStart h s ∧ exStart.phase = .sleeping 0 ∧ (∃ e ∈ h, e.event = .tick) ∧
    (∀ e ∈ h, ¬ IsAnswer e) ∧ s.phase = .fetching 7000 ∧ 7000 + 3000 ≤ s.now ∧
    Step (fun _ => 7000) s ⟨.timeout, announcePeer s.port s.infoHash s.nodes⟩ { s with phase := .sleeping s.now } := by
  have r1 := (Run.nil (pause := fun _ => 7000) (s := exStart)).snoc (.pass (d := 7000))
  have r2 := r1.snoc (.tick (since := 0) rfl (by decide))
  have r3 := r2.snoc (.pass (d := 3000))
  refine ⟨_, _, r3, rfl, ⟨_, by simp; exact .inr (.inl rfl), rfl⟩, ?_, rfl, by decide +kernel, .timeout rfl (by decide +kernel)⟩
  intro e he
  simp only [List.nil_append, List.cons_append, List.mem_cons, List.not_mem_nil, or_false] at he
  rcases he with rfl | rfl | rfl <;> (rintro ⟨r, hr⟩; cases hr)

end Nargun.Fetch
