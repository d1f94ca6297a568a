import Verif.Spec.DhtConnection
import Verif.Props.Krpc

/-! # Lemmas on the DHT connection -/

namespace Nargun.Dht

open Krpc Spec

theorem ofMessage_intoMessage (own : ID) (tid : Bytes) (v : ToConQuery) :
    RequestType.ofMessage (v.intoMessage own tid) = .ok (kindOf v) ∧ (v.intoMessage own tid).tid = tid := by
  cases v <;> exact ⟨rfl, rfl⟩

theorem send_query_eq (env : Env) (tid : Bytes) (s : Con) (c : Nat) (target : SockAddr) (v : ToConQuery) :
    s.send env tid (.query c target v) =
      .ok ({ s with pending := s.pending.insert tid (kindOf v, c) },
        [.datagram target (v.intoMessage s.ownId tid).intoBytes]) := by
  obtain ⟨h1, h2⟩ := ofMessage_intoMessage s.ownId tid v
  simp only [Con.send, h1, h2, Res.ok_bind]

theorem send_resp_eq (env : Env) (tid : Bytes) (s : Con) (qid : QueryId) (v : ToConResp) :
    s.send env tid (.resp qid v) =
      .ok (s, [.datagram qid.target (v.intoMessage s.ownId qid.tid (tokenFor env.sha1 s.secret qid.target.ip)).intoBytes]) :=
  rfl

theorem ofResponse_eq (r : Response) : RequestType.ofResponse r = answersKind r := by cases r <;> rfl

theorem respMessage_eq (a : SockAddr) (r : Response) : respMessage a r = told a r := by cases r <;> rfl

/-- What the task does about a query. -/
def QueryEffects (env : Env) (s : Con) (a : SockAddr) (t : Bytes) (args : Arguments) (effs : List Effect) : Prop :=
  match args with
  | .ping _ => effs = [.datagram a (Message.pingResp s.ownId t).intoBytes]
  | .findNode _ target => effs = [.toManager (.findNode target ⟨a, t⟩)] ∧ s.listening none = true
  | .getPeers _ ih => effs = [.toManager (.getPeers ih ⟨a, t⟩)] ∧ s.listening none = true
  | .announcePeer _ ih port token =>
    if token = tokenFor env.sha1 s.secret a.ip then
      effs = [.toManager (.newPeer ⟨⟨a.ip, port⟩⟩ ih), .datagram a (Message.announcePeerResp s.ownId t).intoBytes] ∧
      s.listening none = true
    else effs = []

theorem handleQuery_ok {env : Env} {s s' : Con} {a : SockAddr} {t : Bytes} {args : Arguments} {effs : List Effect}
    (h : s.handleQuery env t args a = .ok (s', effs)) : s' = s ∧ QueryEffects env s a t args effs := by
  cases args with
  | ping id =>
    simp only [Con.handleQuery, send_resp_eq, Res.ok.injEq, Prod.mk.injEq] at h
    exact ⟨h.1.symm, h.2.symm⟩
  | findNode id target =>
    simp only [Con.handleQuery, Con.into] at h
    split at h
    · simp only [Res.ok.injEq, Prod.mk.injEq] at h
      exact ⟨h.1.symm, h.2.symm, by assumption⟩
    · simp at h
  | getPeers id ih =>
    simp only [Con.handleQuery, Con.into] at h
    split at h
    · simp only [Res.ok.injEq, Prod.mk.injEq] at h
      exact ⟨h.1.symm, h.2.symm, by assumption⟩
    · simp at h
  | announcePeer id ih port token =>
    simp only [Con.handleQuery, Con.tokenIsValid, Con.into, decide_eq_true_eq] at h
    simp only [QueryEffects]
    split at h
    · rename_i hv
      have hv' : token = tokenFor env.sha1 s.secret a.ip := hv
      rw [if_pos hv']
      split at h
      · simp only [Res.ok_bind, send_resp_eq, Res.ok.injEq, Prod.mk.injEq] at h
        exact ⟨h.1.symm, h.2.symm, by assumption⟩
      · simp at h
    · rename_i hv
      have hv' : ¬ token = tokenFor env.sha1 s.secret a.ip := hv
      rw [if_neg hv']
      simp only [Res.ok.injEq, Prod.mk.injEq] at h
      exact ⟨h.1.symm, h.2.symm⟩

/-- What the task does about an answer. -/
def AnswerEffects (s : Con) (a : SockAddr) (t : Bytes) (r : Response) (pending : Pending) (effs : List Effect) : Prop :=
  (∃ c, s.pending.get? t = some (answersKind r, c) ∧ pending = s.pending.erase t ∧
    effs = [.toRequester c (told a r)] ∧ s.listening (some c) = true) ∨
  ((∀ c, s.pending.get? t ≠ some (answersKind r, c)) ∧ pending = s.pending ∧ effs = [])

theorem handleResp_ok {s s' : Con} {a : SockAddr} {t : Bytes} {r : Response} {effs : List Effect}
    (h : s.handleResp t r a = .ok (s', effs)) :
    s' = { s with pending := s'.pending } ∧ AnswerEffects s a t r s'.pending effs := by
  simp only [Con.handleResp, Pending.get] at h
  cases hg : s.pending.get? t with
  | none =>
    rw [hg] at h
    simp only [Res.ok.injEq, Prod.mk.injEq] at h
    obtain ⟨rfl, rfl⟩ := h
    exact ⟨rfl, .inr ⟨fun c => by simp [hg], rfl, rfl⟩⟩
  | some kc =>
    obtain ⟨k, c⟩ := kc
    rw [hg] at h
    simp only [ofResponse_eq] at h
    by_cases hk : k = answersKind r
    · simp only [hk, if_true, Con.into] at h
      split at h
      · simp only [Res.ok.injEq, Prod.mk.injEq] at h
        obtain ⟨rfl, rfl⟩ := h
        exact ⟨rfl, .inl ⟨c, by rw [hg, hk], rfl, by rw [respMessage_eq], by assumption⟩⟩
      · simp at h
    · simp only [hk, if_false, Res.ok.injEq, Prod.mk.injEq] at h
      obtain ⟨rfl, rfl⟩ := h
      refine ⟨rfl, .inr ⟨fun c' hc => hk ?_, rfl, rfl⟩⟩
      rw [hg] at hc
      simp only [Option.some.injEq, Prod.mk.injEq] at hc
      exact hc.1

/-- The buffer after a datagram. -/
def bufAfter (s : Con) (bytes : Bytes) : Bytes := bytes.take s.buf.length ++ s.buf.drop bytes.length

theorem bufAfter_length (s : Con) (bytes : Bytes) : (bufAfter s bytes).length = s.buf.length := by
  simp only [bufAfter, List.length_append, List.length_take, List.length_drop]
  omega

theorem receive_ok {env : Env} {s s' : Con} {sender : Option SockAddr} {bytes : Bytes} {effs : List Effect}
    (h : s.receive env sender bytes = .ok (s', effs)) :
    s' = { s with buf := bufAfter s bytes, pending := s'.pending } ∧
    match sender, heardIn env (bufAfter s bytes) with
    | some a, some (.query t _ _ args) => s'.pending = s.pending ∧ QueryEffects env s a t args effs
    | some a, some (.response t _ r) => AnswerEffects s a t r s'.pending effs
    | _, _ => s'.pending = s.pending ∧ effs = [] := by
  simp only [Con.receive, Con.handleReceived] at h
  change (match sender with
    | none => _
    | some sender => match Message.fromBytes env.lib (bufAfter s bytes) with
      | .panic => _
      | .err => _
      | .ok (.query tid _ _ arguments) => _
      | .ok (.response tid _ response) => _
      | .ok (.error _ _ _) => _) = _ at h
  cases sender with
  | none =>
    simp only [Res.ok.injEq, Prod.mk.injEq] at h
    obtain ⟨rfl, rfl⟩ := h
    exact ⟨rfl, rfl, rfl⟩
  | some a =>
    simp only [heardIn] at h ⊢
    cases hm : Message.fromBytes env.lib (bufAfter s bytes) with
    | panic => rw [hm] at h; simp at h
    | err =>
      rw [hm] at h
      simp only [Res.ok.injEq, Prod.mk.injEq] at h
      obtain ⟨rfl, rfl⟩ := h
      exact ⟨rfl, rfl, rfl⟩
    | ok m =>
      rw [hm] at h
      cases m with
      | query t y q args =>
        simp only at h ⊢
        obtain ⟨rfl, h2⟩ := handleQuery_ok h
        exact ⟨rfl, rfl, h2⟩
      | response t y r =>
        simp only at h ⊢
        obtain ⟨h1, h2⟩ := handleResp_ok h
        exact ⟨h1, h2⟩
      | error t y e =>
        simp only [Res.ok.injEq, Prod.mk.injEq] at h
        obtain ⟨rfl, rfl⟩ := h
        exact ⟨rfl, rfl, rfl⟩

/-- What never changes, and that the table is a map. -/
structure Inv (own secret : ID) (s : Con) : Prop where
  own : s.ownId = own
  secret : s.secret = secret
  wf : s.pending.WF
  buf : s.buf.length = 2 * MTU

theorem Inv.start (own secret : ID) : Inv own secret (Con.start own secret) :=
  ⟨rfl, rfl, List.nodup_nil, List.length_replicate⟩

theorem Inv.step {env : Env} {own secret : ID} {s s' : Con} {e : Entry} (hi : Inv own secret s)
    (h : Con.Step env s e s') : Inv own secret s' := by
  cases h with
  | @datagram _ sender bytes effs h =>
    obtain ⟨h1, h2⟩ := receive_ok h
    rw [h1]
    refine ⟨hi.own, hi.secret, ?_, by rw [bufAfter_length]; exact hi.buf⟩
    simp only
    revert h2
    split
    · rintro ⟨h, _⟩; rw [h]; exact hi.wf
    · rintro (⟨c, _, h, _⟩ | ⟨_, h, _⟩)
      · rw [h]; exact Map.wf_erase hi.wf _
      · rw [h]; exact hi.wf
    · rintro ⟨h, _⟩; rw [h]; exact hi.wf
  | @command _ tid c effs _ h =>
    cases c with
    | query c target v =>
      rw [send_query_eq] at h
      simp only [Res.ok.injEq, Prod.mk.injEq] at h
      obtain ⟨rfl, rfl⟩ := h
      exact ⟨hi.own, hi.secret, Map.wf_insert hi.wf _ _, hi.buf⟩
    | resp qid v =>
      rw [send_resp_eq] at h
      simp only [Res.ok.injEq, Prod.mk.injEq] at h
      obtain ⟨rfl, rfl⟩ := h
      exact hi
  | closed => exact ⟨hi.own, hi.secret, hi.wf, hi.buf⟩
  | reorder hp => exact ⟨hi.own, hi.secret, Map.wf_perm hi.wf hp, hi.buf⟩

theorem Inv.run {env : Env} {own secret : ID} {s s' : Con} {h : List Entry} (hi : Inv own secret s)
    (hr : Con.Run env s h s') : Inv own secret s' := by
  induction hr with
  | nil => exact hi
  | snoc _ hs ih => exact ih.step hs

end Nargun.Dht
