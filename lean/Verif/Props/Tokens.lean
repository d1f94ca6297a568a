import Verif.Props.DhtConnection

/-! # C145: how long a token is good -/

namespace Nargun.Spec

/-- The four bytes of an address. -/
def octets (ip : Ipv4) : Bytes := [ip.a, ip.b, ip.c, ip.d]

end Nargun.Spec

namespace Nargun.Dht

open Krpc Spec

/-- C77, for an answer anywhere in a history. -/
theorem handed_out_before {env : Env} {own secret : ID} {h : List Entry} {s : Con}
    (hr : Con.Run env (Con.start own secret) h s) {e : Entry} (he : e ∈ h) {tid : Bytes} {qid : QueryId} {vn : ValuesOrNodes}
    (hc : e.event = .command tid (.resp qid (.getPeers vn))) :
    e.effects = [.datagram qid.target
      (Message.getPeersResp own (tokenFor env.sha1 secret qid.target.ip) vn qid.tid).intoBytes] := by
  generalize hs0 : Con.start own secret = s0 at hr
  induction hr with
  | nil => simp at he
  | @snoc s1 s2 h e' hr hs ih =>
    subst hs0
    rcases List.mem_append.mp he with he | he
    · exact ih he
    · simp only [List.mem_singleton] at he
      subst he
      exact C77_handed_out env own secret h s1 s2 hr tid qid vn _ hs hc

/-- C145 is violated: a token that was handed out with an answer to `get_peers` is good as long as the program runs. Whatever
has happened since and however long ago that was, an announcement with it from that address is accepted. -/
theorem C145_never_expires_violated (env : Env) (own secret : ID) (h : List Entry) (s : Con)
    (hr : Con.Run env (Con.start own secret) h s) (e : Entry) (he : e ∈ h) (tid : Bytes) (qid : QueryId) (vn : ValuesOrNodes)
    (hc : e.event = .command tid (.resp qid (.getPeers vn))) :
    ∃ token, e.effects = [.datagram qid.target (Message.getPeersResp own token vn qid.tid).intoBytes] ∧
      ∀ (a : SockAddr) (bytes t q : Bytes) (y : Byte) (id ih : ID) (port : U16) (effs : List Effect) (s' : Con),
        a.ip = qid.target.ip →
        Con.Step env s ⟨.datagram (some a) bytes, some (.query t y q (.announcePeer id ih port token)), effs⟩ s' →
        effs = [.toManager (.newPeer ⟨⟨a.ip, port⟩⟩ ih), .datagram a (Message.announcePeerResp own t).intoBytes] := by
  refine ⟨_, handed_out_before hr he hc, fun a bytes t q y id ih port effs s' ha hs => ?_⟩
  exact (C77_announce env own secret h s s' hr a bytes t q y id ih port _ effs hs).1 (by rw [ha])

/-- C145, the part that holds: a token that was handed out in one session to one address and is accepted in this or another
session was presented at that address, and in a session with the same secret (the secret is chosen at random at each start),
unless the two secrets with the two addresses are different strings with the same SHA-1 hash. Missing: within the session it never becomes invalid
(`C145_never_expires_violated`). -/
theorem C145_bound_partial (env : Env) (own1 secret1 : ID) (h1 : List Entry) (s1 : Con)
    (hr1 : Con.Run env (Con.start own1 secret1) h1 s1) (e : Entry) (he : e ∈ h1) (tid : Bytes) (qid : QueryId)
    (vn : ValuesOrNodes) (hc : e.event = .command tid (.resp qid (.getPeers vn))) :
    ∃ token, e.effects = [.datagram qid.target (Message.getPeersResp own1 token vn qid.tid).intoBytes] ∧
      ∀ (own2 secret2 : ID) (h2 : List Entry) (s2 s2' : Con), Con.Run env (Con.start own2 secret2) h2 s2 →
      ∀ (a : SockAddr) (bytes t q : Bytes) (y : Byte) (id ih : ID) (port : U16) (effs : List Effect),
        Con.Step env s2 ⟨.datagram (some a) bytes, some (.query t y q (.announcePeer id ih port token)), effs⟩ s2' →
        effs ≠ [] →
        (a.ip = qid.target.ip ∧ secret2 = secret1) ∨
          secret1.bytes ++ octets qid.target.ip ≠ secret2.bytes ++ octets a.ip ∧
            env.sha1 (secret1.bytes ++ octets qid.target.ip) = env.sha1 (secret2.bytes ++ octets a.ip) := by
  refine ⟨_, handed_out_before hr1 he hc, fun own2 secret2 h2 s2 s2' hr2 a bytes t q y id ih port effs hs hne => ?_⟩
  have hann := C77_announce env own2 secret2 h2 s2 s2' hr2 a bytes t q y id ih port _ effs hs
  have htok : tokenFor env.sha1 secret1 qid.target.ip = tokenFor env.sha1 secret2 a.ip :=
    Classical.byContradiction fun hn => hne (hann.2 hn)
  unfold tokenFor at htok
  by_cases heq : secret1.bytes ++ [qid.target.ip.a, qid.target.ip.b, qid.target.ip.c, qid.target.ip.d] =
      secret2.bytes ++ [a.ip.a, a.ip.b, a.ip.c, a.ip.d]
  · left
    obtain ⟨h1, h2⟩ := List.append_inj heq (by rw [secret1.len_eq, secret2.len_eq])
    simp only [List.cons.injEq, and_true] at h2
    constructor
    · obtain ⟨ha, hb, hc, hd⟩ := h2
      cases hip : a.ip
      cases hiq : qid.target.ip
      simp only [hip, hiq] at ha hb hc hd
      rw [ha, hb, hc, hd]
    · cases secret1
      cases secret2
      simp only at h1
      subst h1
      rfl
  · exact .inr ⟨heq, htok⟩

/-! ## A concrete case -/

/-- An answer to `get_peers`. -/
def demoAnswer : Entry :=
  ⟨.command (ascii "abcde") (.resp ⟨demoSender, ascii "aa"⟩ (.getPeers (.values []))), none,
    [.datagram demoSender (Message.getPeersResp (sameId 1#8) (tokenFor demoEnv.sha1 (sameId 2#8) demoSender.ip) (.values [])
      (ascii "aa")).intoBytes]⟩

/-- The answer is given, then a ping is sent; an announcement with the token is accepted. -/
example : Con.Run demoEnv (Con.start (sameId 1#8) (sameId 2#8)) [demoAnswer, demoPing] demoCon ∧
    effectsAfter demoEnv demoCon demoSender []
      (Message.announcePeerQuery (sameId 5#8) (sameId 6#8) 51413#16 (tokenFor demoEnv.sha1 (sameId 2#8) demoSender.ip)
        (ascii "aa")).intoBytes =
      some [.toManager (.newPeer ⟨⟨demoSender.ip, 51413#16⟩⟩ (sameId 6#8)),
        .datagram demoSender (Message.announcePeerResp (sameId 1#8) (ascii "aa")).intoBytes] := by
  refine ⟨.snoc (h := [demoAnswer]) (.snoc (h := []) .nil (.command rfl rfl)) (.command rfl rfl), by decide +kernel⟩

end Nargun.Dht
