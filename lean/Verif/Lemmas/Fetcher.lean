import Verif.Spec.Fetcher
import Verif.Props.RoutingTable
import Verif.Lemmas.Peers

/-! # Lemmas about the lookup task -/

namespace Nargun.Fetch

open Nargun Dht Krpc Spec RoutingTable

theorem Close.id_eq (n : Close) : n.id = namedId n := by cases n <;> rfl

theorem Close.token_eq (n : Close) : n.token = givenToken n := by cases n <;> rfl

theorem compareClose_le (ih : ID) (a b : Close) :
    decide (compareClose ih a b ≠ .gt) = true ↔ Preferred ih a b := by
  have key := cmpByDistance_le ⟨a.id, ⟨⟨0, 0, 0, 0⟩, 0⟩, none⟩ ⟨b.id, ⟨⟨0, 0, 0, 0⟩, 0⟩, none⟩ ih
  have key := (@decide_eq_true_iff _ _).symm.trans key
  rw [decide_eq_true_iff]
  simp only [Node.cmpByDistance] at key
  cases a <;> cases b <;> simp_all [compareClose, Close.cmpDiscriminant, Preferred, worth, Close.id_eq, namedId]

theorem Preferred.trans {ih : ID} {a b c : Close} (h1 : Preferred ih a b) (h2 : Preferred ih b c) :
    Preferred ih a c := by
  simp only [Preferred] at *; omega

theorem Preferred.total (ih : ID) (a b : Close) : Preferred ih a b ∨ Preferred ih b a := by
  simp only [Preferred]; omega

theorem sortedNodes_perm (m : NodeMap) (ih : ID) : (sortedNodes m ih).Perm m := stableSort_perm _ m

theorem sortedNodes_sorted (m : NodeMap) (ih : ID) :
    (sortedNodes m ih).Pairwise fun a b => Preferred ih a.2 b.2 := by
  have := stableSort_pairwise (le := fun a b : SockAddr × Close => decide (compareClose ih a.2 b.2 ≠ .gt))
    (by intro a b c; rw [compareClose_le, compareClose_le, compareClose_le]; exact Preferred.trans)
    (by intro a b; rw [Bool.or_eq_true, compareClose_le, compareClose_le]; exact Preferred.total ih _ _) m
  exact this.imp fun {a b} h => (compareClose_le ih a.2 b.2).mp h

theorem forget_spec {m : NodeMap} (hw : m.WF) (ih : ID) :
    (forgetFarNodes m ih).WF ∧ (forgetFarNodes m ih).length = min 128 m.length ∧
    (∀ e ∈ forgetFarNodes m ih, e ∈ m) ∧
    ∀ e ∈ forgetFarNodes m ih, ∀ f ∈ m, f ∉ forgetFarNodes m ih → Preferred ih e.2 f.2 := by
  have hp := sortedNodes_perm m ih
  refine ⟨?_, ?_, ?_, ?_⟩
  · have : Map.WF (sortedNodes m ih) := Map.wf_perm hw hp.symm
    exact (List.take_sublist _ _ |>.map _).nodup this
  · simp only [forgetFarNodes, List.length_take, hp.length_eq, CAP_LOW]
  · intro e he
    exact hp.mem_iff.mp (List.mem_of_mem_take he)
  · intro e he f hf hn
    have hf' := hp.mem_iff.mpr hf
    have hs := sortedNodes_sorted m ih
    rw [← List.take_append_drop CAP_LOW (sortedNodes m ih)] at hs hf'
    rw [List.pairwise_append] at hs
    rcases List.mem_append.mp hf' with h | h
    · exact absurd h hn
    · exact hs.2.2 e he f h

theorem newNodes_get (ih : ID) (ns : List Node) : ∀ (m : NodeMap) (a : SockAddr),
    (getPeersFromNewNodes ih ns m).1.get? a =
      match m.get? a with
      | some n => some n
      | none => (ns.find? fun n => n.addr = a).map fun n => .unknown n.id := by
  induction ns with
  | nil => intro m a; simp only [getPeersFromNewNodes]; cases m.get? a <;> simp
  | cons n ns ihn =>
    intro m a
    simp only [getPeersFromNewNodes]
    by_cases hc : m.contains n.addr = true
    · simp only [hc, if_true]
      rw [ihn]
      cases hg : m.get? a with
      | some x => rfl
      | none =>
        have : n.addr ≠ a := by
          rintro rfl
          simp [Map.contains, hg] at hc
        simp [this]
    · simp only [hc]
      have hg : m.get? n.addr = none := by
        simp only [Map.contains, Bool.not_eq_true, Option.isSome_eq_false_iff, Option.isNone_iff_eq_none] at hc
        exact hc
      simp only [Bool.false_eq_true, if_false]
      rw [ihn, Map.get?_insert]
      by_cases ha : a = n.addr
      · subst ha
        simp [hg]
      · have : n.addr ≠ a := fun h => ha h.symm
        simp only [ha, if_false, List.find?_cons, this, decide_false]

theorem newNodes_wf (ih : ID) (ns : List Node) : ∀ m : NodeMap, m.WF → (getPeersFromNewNodes ih ns m).1.WF := by
  induction ns with
  | nil => intro m h; exact h
  | cons n ns ihn =>
    intro m h
    simp only [getPeersFromNewNodes]
    split
    · exact ihn m h
    · exact ihn _ (Map.wf_insert h _ _)

theorem newNodes_sent (ih : ID) (ns : List Node) : ∀ (m : NodeMap) (x : Sent),
    x ∈ (getPeersFromNewNodes ih ns m).2 ↔ ∃ a, x = (a, .getPeers ih) ∧ a ∈ ns.map (·.addr) ∧ m.get? a = none := by
  induction ns with
  | nil => intro m x; simp [getPeersFromNewNodes]
  | cons n ns ihn =>
    intro m x
    simp only [getPeersFromNewNodes]
    by_cases hc : m.contains n.addr = true
    · simp only [hc, if_true]
      rw [ihn]
      constructor
      · rintro ⟨a, rfl, h1, h2⟩
        exact ⟨a, rfl, by simp [h1], h2⟩
      · rintro ⟨a, rfl, h1, h2⟩
        refine ⟨a, rfl, ?_, h2⟩
        simp only [List.map_cons, List.mem_cons] at h1
        rcases h1 with rfl | h1
        · simp [Map.contains, h2] at hc
        · exact h1
    · have hg : m.get? n.addr = none := by
        simp only [Map.contains, Bool.not_eq_true, Option.isSome_eq_false_iff, Option.isNone_iff_eq_none] at hc
        exact hc
      simp only [hc, Bool.false_eq_true, if_false, List.mem_cons]
      rw [ihn]
      constructor
      · rintro (rfl | ⟨a, rfl, h1, h2⟩)
        · exact ⟨_, rfl, by simp, hg⟩
        · rw [Map.get?_insert] at h2
          split at h2
          · simp at h2
          · exact ⟨a, rfl, by simp only [List.map_cons, List.mem_cons]; exact .inr h1, h2⟩
      · rintro ⟨a, rfl, h1, h2⟩
        by_cases ha : a = n.addr
        · subst ha; exact .inl rfl
        · refine .inr ⟨a, rfl, ?_, by rw [Map.get?_insert]; simp [ha, h2]⟩
          simp only [List.map_cons, List.mem_cons] at h1
          exact h1.resolve_left ha

theorem newNodes_nodup (ih : ID) (ns : List Node) : ∀ m : NodeMap,
    ((getPeersFromNewNodes ih ns m).2.map (·.1)).Nodup := by
  induction ns with
  | nil => intro m; simp [getPeersFromNewNodes]
  | cons n ns ihn =>
    intro m
    simp only [getPeersFromNewNodes]
    split
    · exact ihn m
    · simp only [List.map_cons, List.nodup_cons]
      refine ⟨?_, ihn _⟩
      intro hm
      obtain ⟨x, hx, he⟩ := List.mem_map.mp hm
      obtain ⟨a, rfl, _, h2⟩ := (newNodes_sent ih ns _ x).mp hx
      simp only at he
      subst he
      simp [Map.get?_insert] at h2

/-- The working set after an answer, before it is cut. -/
theorem answer_get (s : Fetcher) (sender : SockAddr) (token : Bytes) (vn : ValuesOrNodes) (a : SockAddr) :
    (s.answer (.getPeers sender token vn)).1.nodes.get? a = afterAnswer s.nodes.get? sender token vn a := by
  simp only [Fetcher.answer, afterAnswer, Close.id_eq]
  cases hs : s.nodes.get? sender with
  | none => rfl
  | some node =>
    cases vn with
    | values vs =>
      simp only [Map.get?_insert]
    | nodes ns =>
      simp only [newNodes_get, Map.get?_insert]
      by_cases ha : a = sender
      · simp [ha]
      · simp only [ha, if_false]
        rfl

theorem answer_wf {s : Fetcher} (hw : s.nodes.WF) (r : FromConResp) : (s.answer r).1.nodes.WF := by
  cases r with
  | touch => exact hw
  | newNodes => exact hw
  | getPeers sender token vn =>
    simp only [Fetcher.answer]
    split
    · exact hw
    · split
      · exact Map.wf_insert hw _ _
      · exact newNodes_wf _ _ _ (Map.wf_insert hw _ _)

/-- The working set after the cut. -/
def cut (m : NodeMap) (ih : ID) : NodeMap := if m.length ≥ 512 then forgetFarNodes m ih else m

theorem cut_wf {m : NodeMap} (hw : m.WF) (ih : ID) : (cut m ih).WF := by
  simp only [cut]; split
  · exact (forget_spec hw ih).1
  · exact hw

theorem cut_length (m : NodeMap) (hw : m.WF) (ih : ID) : (cut m ih).length < 512 := by
  simp only [cut]; split
  · rw [(forget_spec hw ih).2.1]; omega
  · omega

theorem cut_mem {m : NodeMap} (hw : m.WF) (ih : ID) : ∀ e ∈ cut m ih, e ∈ m := by
  intro e; simp only [cut]; split
  · exact (forget_spec hw ih).2.2.1 e
  · exact id

theorem cut_get {m : NodeMap} (hw : m.WF) (ih : ID) {a : SockAddr} {n : Close} (h : (cut m ih).get? a = some n) :
    m.get? a = some n := Map.get?_of_mem hw (cut_mem hw ih _ (Map.mem_of_get? h))

theorem receive_ignored {s : Fetcher} {r : FromConResp} (h : s.accepts r = false) :
    s.receive r = ({ s with phase := .fetching s.now }, []) := by
  simp [Fetcher.receive, h]

theorem accepts_iff {s : Fetcher} {r : FromConResp} :
    s.accepts r = true ↔ ∃ sender token vn node, r = .getPeers sender token vn ∧ s.nodes.get? sender = some node := by
  cases r with
  | touch => simp [Fetcher.accepts]
  | newNodes => simp [Fetcher.accepts]
  | getPeers sender token vn =>
    simp only [Fetcher.accepts, Map.contains, Option.isSome_iff_exists, FromConResp.getPeers.injEq]
    constructor
    · rintro ⟨n, h⟩; exact ⟨sender, token, vn, n, ⟨rfl, rfl, rfl⟩, h⟩
    · rintro ⟨_, _, _, n, ⟨rfl, rfl, rfl⟩, h⟩; exact ⟨n, h⟩

/-- Everything an accepted answer does. -/
theorem receive_accepted {s : Fetcher} {r : FromConResp} (h : s.accepts r = true) :
    let m := cut (s.answer r).1.nodes s.infoHash
    let ended := decide ((s.answer r).1.nodes.length ≥ 512) && (s.answer r).1.peers.enoughPeers.2
    (s.receive r).1 = { s with
      nodes := m
      peers := if (s.answer r).1.nodes.length ≥ 512 then (s.answer r).1.peers.enoughPeers.1 else (s.answer r).1.peers
      phase := if ended then .sleeping s.now else .fetching s.now } ∧
    (s.receive r).2 = (s.answer r).2 ++ if ended then announcePeer s.port s.infoHash m else [] := by
  obtain ⟨sender, token, vn, node, rfl, hg⟩ := accepts_iff.mp h
  have e1 : (({ s with phase := .fetching s.now } : Fetcher).answer (.getPeers sender token vn)) =
      ({ (s.answer (.getPeers sender token vn)).1 with phase := .fetching s.now },
        (s.answer (.getPeers sender token vn)).2) := by
    simp only [Fetcher.answer, hg]
    cases vn <;> rfl
  have e2 : (s.answer (.getPeers sender token vn)).1 =
      ⟨s.infoHash, s.port, (s.answer (.getPeers sender token vn)).1.nodes,
        (s.answer (.getPeers sender token vn)).1.peers, s.phase, s.rounds, s.now⟩ := by
    simp only [Fetcher.answer, hg]
    cases vn <;> rfl
  simp only [Fetcher.receive, h, if_true, e1]
  generalize (s.answer (.getPeers sender token vn)).2 = sent at *
  generalize hs1 : (s.answer (.getPeers sender token vn)).1 = s1 at *
  rw [e2]
  by_cases hl : s1.nodes.length ≥ 512
  · by_cases hen : s1.peers.enoughPeers.2 = true
    · simp [Fetcher.trim, cut, hl, hen, CAP_HIGH, Fetcher.finish]
    · simp [Fetcher.trim, cut, hl, hen, CAP_HIGH]
  · simp [Fetcher.trim, cut, hl, CAP_HIGH]

end Nargun.Fetch
