import Verif.Model.Receiver
import Verif.Lemmas.Message

namespace Nargun
open Spec

/-- The buffered, not yet handled bytes. -/
def RecvState.data (s : RecvState) : Bytes := s.buf.take s.dataLen

/-- What holds between two reads. -/
structure RecvState.Inv (s : RecvState) : Prop where
  start : s.dataStart = 0
  size : s.buf.length = MAX_MESSAGE_BYTES
  fits : s.dataLen ≤ MAX_MESSAGE_BYTES

theorem RecvState.init_inv : RecvState.init.Inv := ⟨rfl, by simp [init], by simp [init]⟩

theorem RecvState.Inv.data_length {s : RecvState} (h : s.Inv) : s.data.length = s.dataLen := by
  have := h.size; have := h.fits; simp [data]; omega

theorem RecvState.Inv.buf_eq {s : RecvState} (_ : s.Inv) : s.buf = s.data ++ s.buf.drop s.dataLen := by
  simp [data]

theorem wire_length_ge (m : Message) : 4 ≤ (wire m).length := by rw [wire_length]; omega

theorem wireAll_cons (m : Message) (ms : List Message) : wireAll (m :: ms) = wire m ++ wireAll ms := by
  simp [wireAll]

theorem wireAll_append (as bs : List Message) : wireAll (as ++ bs) = wireAll as ++ wireAll bs := by
  simp [wireAll]

/-- A read of `chunk` appends it to the buffered data. -/
theorem onRead_spec {s : RecvState} (h : s.Inv) (chunk : Bytes) (hc : chunk.length ≤ s.capacity) :
    ∃ s', s.onRead chunk = .ok s' ∧ s'.Inv ∧ s'.data = s.data ++ chunk
      ∧ s'.dataLen = s.dataLen + chunk.length := by
  have h1 := h.start; have h2 := h.size; have h3 := h.fits
  have hc' : s.dataLen + chunk.length ≤ MAX_MESSAGE_BYTES := by
    simp only [RecvState.capacity] at hc; omega
  unfold RecvState.onRead
  rw [if_pos (by omega)]
  refine ⟨_, rfl, ⟨h1, ?_, ?_⟩, ?_, rfl⟩
  · simp; omega
  · simpa using hc'
  · have e : (s.buf.take s.dataLen ++ chunk).length = s.dataLen + chunk.length := by
      simp; omega
    simp only [RecvState.data, h1, Nat.zero_add]
    rw [List.take_append, e, Nat.sub_self, List.take_zero, List.append_nil]
    exact List.take_of_length_le (by omega)

/-- A length-delimited message with an id the client does not know: `n + 1` bytes behind the prefix. -/
def UnknownFrame (u : Bytes) : Prop :=
  ∃ (id : Byte) (body : Bytes), 10 ≤ id.toNat ∧ body.length + 1 < 2 ^ 32 ∧
    u = beBytes 4 (body.length + 1) ++ id :: body

theorem UnknownFrame.length {u : Bytes} (h : UnknownFrame u) : 5 ≤ u.length := by
  obtain ⟨id, body, _, _, rfl⟩ := h
  simp [beBytes_length]; omega

theorem bodyMessage_unknown {id : Byte} (h : 10 ≤ id.toNat) (n : Nat) (body : Bytes) :
    bodyMessage id n body = .ok none := by
  unfold bodyMessage
  split <;> first | rfl | omega

/-- An unknown message at the front of the buffer, complete: everything buffered is dropped, including
whatever follows it. -/
theorem drain_unknown {s : RecvState} (h : s.Inv) (fuel : Nat) (u rest : Bytes) (hu : UnknownFrame u)
    (hd : s.data = u ++ rest) :
    s.drain (fuel + 1) = .ok ({ s with dataStart := 0, dataLen := 0 }, []) := by
  have hl := hu.length
  have hdl := h.data_length
  obtain ⟨id, body, hid, hn, rfl⟩ := hu
  rw [hd] at hdl
  simp only [List.length_append, List.length_cons, beBytes_length] at hdl hl
  have hb := h.buf_eq
  rw [hd] at hb
  have hbuf : s.buf = beBytes 4 (body.length + 1) ++ id :: (body ++ (rest ++ s.buf.drop s.dataLen)) := by
    generalize s.buf.drop s.dataLen = t at hb ⊢
    rw [hb]; simp
  unfold RecvState.drain
  rw [if_neg (by omega), h.start, sliceFrom_ok (by omega), List.drop_zero]
  have e1 : Message.len s.buf = .ok (body.length + 1) := by
    rw [hbuf]; exact fromBuf_prefix _ hn _
  have e2 : Message.fromBuf s.buf = .ok none := by
    rw [hbuf, fromBuf_body _ hn _ _ (by simp), bodyMessage_unknown hid]
  simp only [Res.ok_bind, e1, e2]
  rw [if_pos (by omega)]

/-- The inner loop on a stream of well-formed messages followed by at most one unknown one. -/
theorem drain_msgs (fuel : Nat) : ∀ (s : RecvState), s.Inv → ∀ (ms : List Message), (∀ m ∈ ms, Fits m) →
    ∀ (u pending : Bytes), (u = [] ∨ UnknownFrame u) → s.data ++ pending = wireAll ms ++ u →
    s.dataLen < fuel →
    ∃ k s', s.drain fuel = .ok (s', ms.take k) ∧ s'.Inv ∧ k ≤ ms.length ∧
      ((s'.data ++ pending = wireAll (ms.drop k) ++ u ∧
        (∀ m, ms[k]? = some m → s'.dataLen < (wire m).length) ∧
        (k = ms.length → u ≠ [] → s'.dataLen < u.length))
      ∨ (k = ms.length ∧ s'.dataLen = 0 ∧ pending = [])) := by
  induction fuel with
  | zero => intro s _ ms _ u pending _ _ h; omega
  | succ fuel ih =>
    intro s hs ms hf u pending hu heq hfuel
    have hdl := hs.data_length
    by_cases h4 : s.dataLen < 4
    · refine ⟨0, s, by unfold RecvState.drain; rw [if_pos h4]; rfl, hs, by omega, .inl ⟨by simpa using heq, ?_, ?_⟩⟩
      · intro m _; have := wire_length_ge m; omega
      · intro _ hne
        have := (hu.resolve_left hne).length
        omega
    have hbuf := hs.buf_eq
    cases ms with
    | nil =>
      have hne : u ≠ [] := by
        rintro rfl
        simp [wireAll] at heq
        rw [heq.1] at hdl
        simp at hdl; omega
      have hu' := hu.resolve_left hne
      simp only [wireAll, List.map_nil, List.flatten_nil, List.nil_append] at heq
      by_cases hc : u.length ≤ s.dataLen
      · -- the unknown message is complete
        have hp : pending = [] := by
          have := congrArg List.length heq
          simp only [List.length_append, hdl] at this
          exact List.length_eq_zero_iff.mp (by omega)
        refine ⟨0, _, drain_unknown hs fuel u [] hu' (by simpa [hp] using heq), ⟨rfl, hs.size, by simp⟩, by simp,
          .inr ⟨by simp, rfl, hp⟩⟩
      · refine ⟨0, s, ?_, hs, by simp, .inl ⟨by simpa [wireAll] using heq, by simp, fun _ _ => by omega⟩⟩
        have hle := hu'.length
        obtain ⟨id, body, hid, hn, rfl⟩ := hu'
        have e1 : Message.len s.buf = .ok (body.length + 1) := by
          have : beBytes 4 (body.length + 1) <+: s.data := by
            apply List.prefix_of_prefix_length_le (l₃ := s.data ++ pending)
            · rw [heq]; exact List.prefix_append _ _
            · exact List.prefix_append _ _
            · rw [beBytes_length]; omega
          obtain ⟨t, ht⟩ := this
          rw [hbuf, ← ht, List.append_assoc]
          exact fromBuf_prefix _ hn _
        simp only [List.length_append, List.length_cons, beBytes_length] at hc
        unfold RecvState.drain
        have := hs.size; have := hs.fits
        rw [if_neg h4, hs.start, sliceFrom_ok (by omega), List.drop_zero]
        simp only [Res.ok_bind, e1]
        rw [if_neg (by omega)]
        rfl
    | cons m ms =>
      have hfm : Fits m := hf m (by simp)
      rw [wireAll_cons, List.append_assoc] at heq
      have hsz := hs.size
      have hft := hs.fits
      have e1 : Message.len s.buf = .ok (payload m).length := by
        have : beBytes 4 (payload m).length <+: s.data := by
          apply List.prefix_of_prefix_length_le (l₃ := s.data ++ pending)
          · rw [heq, wire]; simp only [List.append_assoc]; exact List.prefix_append _ _
          · exact List.prefix_append _ _
          · rw [beBytes_length]; omega
        obtain ⟨t, ht⟩ := this
        rw [hbuf, ← ht, List.append_assoc]
        exact fromBuf_prefix _ hfm _
      have hwl := wire_length m
      by_cases hc : (wire m).length ≤ s.dataLen
      · -- a complete message
        obtain ⟨d, hd⟩ : wire m <+: s.data := by
          apply List.prefix_of_prefix_length_le (l₃ := s.data ++ pending)
          · rw [heq]; exact List.prefix_append _ _
          · exact List.prefix_append _ _
          · omega
        have hdlen : d.length = s.dataLen - (wire m).length := by
          have := congrArg List.length hd
          simp only [List.length_append] at this; omega
        have e2 : Message.fromBuf s.buf = .ok (some m) := by
          rw [hbuf, ← hd, List.append_assoc]; exact fromBuf_wire m hfm _
        -- the state the loop continues with
        have hbufs : ∃ buf', (if 0 < s.dataLen - ((payload m).length + 4)
            then RecvState.copyToFront s.buf (0 + ((payload m).length + 4)) (s.dataLen - ((payload m).length + 4))
            else .ok s.buf) = .ok buf' ∧ buf'.length = MAX_MESSAGE_BYTES
              ∧ buf'.take (s.dataLen - ((payload m).length + 4)) = d := by
          by_cases hpos : 0 < s.dataLen - ((payload m).length + 4)
          · rw [if_pos hpos, RecvState.copyToFront, if_pos (by omega)]
            refine ⟨_, rfl, by simp; omega, ?_⟩
            have hdrop : s.buf.drop (0 + ((payload m).length + 4)) = d ++ s.buf.drop s.dataLen := by
              conv => lhs; rw [hbuf]
              rw [← hd, List.append_assoc, show 0 + ((payload m).length + 4) = (wire m).length by omega]
              simp
            rw [hdrop]
            have : s.dataLen - ((payload m).length + 4) = d.length := by omega
            rw [this]
            simp
          · rw [if_neg hpos]
            refine ⟨_, rfl, hsz, ?_⟩
            have : d = [] := List.length_eq_zero_iff.mp (by omega)
            rw [this, show s.dataLen - ((payload m).length + 4) = 0 by omega]; simp
        obtain ⟨buf', hb1, hb2, hb3⟩ := hbufs
        have hinv : RecvState.Inv ⟨buf', 0, s.dataLen - ((payload m).length + 4)⟩ :=
          ⟨rfl, hb2, by simp only; omega⟩
        obtain ⟨k, s', hr, hi, hk, hcase⟩ := ih ⟨buf', 0, s.dataLen - ((payload m).length + 4)⟩ hinv ms
          (fun x hx => hf x (by simp [hx])) u pending hu
          (by
            simp only [RecvState.data, hb3]
            rw [← hd, List.append_assoc] at heq
            exact List.append_cancel_left heq)
          (by simp only; omega)
        refine ⟨k + 1, s', ?_, hi, by simpa using hk, ?_⟩
        · unfold RecvState.drain
          rw [if_neg h4, hs.start, sliceFrom_ok (by omega), List.drop_zero]
          simp only [Res.ok_bind, e1, e2]
          rw [if_pos (by omega)]
          simp only [hb1, Res.ok_bind, hr]
          rfl
        · rcases hcase with ⟨a, b, c⟩ | ⟨a, b, c⟩
          · exact .inl ⟨by simpa using a, by simpa using b, fun h => c (by simpa using h)⟩
          · exact .inr ⟨by simp [a], b, c⟩
      · refine ⟨0, s, ?_, hs, by simp, .inl ⟨by rw [List.drop_zero, wireAll_cons, List.append_assoc]; exact heq, ?_, by simp⟩⟩
        · unfold RecvState.drain
          rw [if_neg h4, hs.start, sliceFrom_ok (by omega), List.drop_zero]
          simp only [Res.ok_bind, e1]
          rw [if_neg (by omega)]
          rfl
        · intro m' hm'; simp at hm'; subst hm'; omega

theorem onRead_nil {s : RecvState} (h : s.Inv) : s.onRead [] = .ok s := by
  have h1 := h.start; have h2 := h.size; have h3 := h.fits
  unfold RecvState.onRead
  rw [if_pos (by omega)]
  simp

/-- A read that returns no bytes changes nothing unless a complete message is buffered. -/
theorem iterate_nil {s : RecvState} (h : s.Inv) : s.iterate [] = s.drain (s.dataLen + 1) := by
  simp [RecvState.iterate, onRead_nil h]

theorem run_idle {s : RecvState} (h : s.Inv) (h0 : s.drain (s.dataLen + 1) = .ok (s, [])) (sched : List Nat) :
    s.run [] sched = .ok (s, [], []) := by
  induction sched with
  | nil => rfl
  | cons k sched ih => simp [RecvState.run, iterate_nil h, h0, ih]

theorem drain_empty {s : RecvState} (h0 : s.dataLen < 4) (fuel : Nat) : s.drain fuel = .ok (s, []) := by
  cases fuel with
  | zero => rfl
  | succ n => unfold RecvState.drain; rw [if_pos h0]

/-- No complete message is buffered, and what is buffered is a part of the given frames. -/
def Quiet (s : RecvState) (ms : List Message) (u : Bytes) : Prop :=
  (∀ m, ms.head? = some m → s.dataLen < (wire m).length) ∧ (ms = [] → u ≠ [] → s.dataLen < u.length)

theorem quiet_capacity {s : RecvState} (hs : s.Inv) {ms : List Message} {u stream : Bytes}
    (hw : ∀ m ∈ ms, (wire m).length ≤ MAX_MESSAGE_BYTES) (hu : u.length ≤ MAX_MESSAGE_BYTES)
    (heq : s.data ++ stream = wireAll ms ++ u) (hq : Quiet s ms u) : 0 < s.capacity := by
  have h1 := hs.start; have h2 := hs.size; have h4 := hs.data_length
  have : s.dataLen < MAX_MESSAGE_BYTES := by
    cases ms with
    | cons m ms => have := hq.1 m rfl; have := hw m (by simp); omega
    | nil =>
      by_cases hn : u = []
      · subst hn
        simp [wireAll] at heq
        rw [heq.1] at h4
        simp [MAX_MESSAGE_BYTES] at h4 ⊢; omega
      · have := hq.2 rfl hn; omega
  simp only [RecvState.capacity]; omega

theorem fits_of_wire {m : Message} (h : (wire m).length ≤ MAX_MESSAGE_BYTES) : Fits m := by
  rw [wire_length] at h
  simp only [Fits, MAX_MESSAGE_BYTES, BLOCK_SIZE] at *
  omega

/-- The receive loop on well-formed messages followed by at most one unknown one, under every schedule. -/
theorem run_msgs (sched : List Nat) : ∀ (s : RecvState), s.Inv → ∀ (ms : List Message),
    (∀ m ∈ ms, (wire m).length ≤ MAX_MESSAGE_BYTES) → ∀ (u stream : Bytes),
    (u = [] ∨ UnknownFrame u) → u.length ≤ MAX_MESSAGE_BYTES → s.data ++ stream = wireAll ms ++ u →
    Quiet s ms u →
    ∃ k s' rest, s.run stream sched = .ok (s', rest, ms.take k) ∧ s'.Inv ∧ k ≤ ms.length ∧ rest <:+ stream ∧
      ((s'.data ++ rest = wireAll (ms.drop k) ++ u ∧ Quiet s' (ms.drop k) u)
        ∨ (k = ms.length ∧ s'.dataLen = 0 ∧ rest = [])) ∧
      ((∀ n ∈ sched, 1 ≤ n) → rest = [] ∨ sched.length + rest.length ≤ stream.length) := by
  induction sched with
  | nil =>
    intro s hs ms hw u stream hu hul heq hq
    exact ⟨0, s, stream, rfl, hs, by omega, List.suffix_refl _, .inl ⟨by simpa using heq, by simpa using hq⟩,
      fun _ => .inr (by simp)⟩
  | cons n sched ih =>
    intro s hs ms hw u stream hu hul heq hq
    have hcap := quiet_capacity hs hw hul heq hq
    have hcl : (stream.take (min n s.capacity)).length ≤ s.capacity := by simp; omega
    obtain ⟨s1, hr1, hi1, hd1, hl1⟩ := onRead_spec hs _ hcl
    have heq1 : s1.data ++ stream.drop (min n s.capacity) = wireAll ms ++ u := by
      rw [hd1, List.append_assoc, List.take_append_drop, heq]
    obtain ⟨k, s2, hdr, hi2, hk, hcase⟩ := drain_msgs (s1.dataLen + 1) s1 hi1 ms (fun m hm => fits_of_wire (hw m hm)) u
      _ hu heq1 (by omega)
    have hit : s.iterate (stream.take (min n s.capacity)) = .ok (s2, ms.take k) := by
      simp [RecvState.iterate, hr1, hdr]
    rcases hcase with ⟨ha, hb, hc⟩ | ⟨ha, hb, hc⟩
    · have hq2 : Quiet s2 (ms.drop k) u := by
        constructor
        · intro m hm
          rw [List.head?_drop] at hm
          exact hb m hm
        · intro h0
          exact hc (by have := List.drop_eq_nil_iff.mp h0; omega)
      obtain ⟨k', s3, rest, hrun, hi3, hk', hsuf, hcase', hprog⟩ :=
        ih s2 hi2 (ms.drop k) (fun m hm => hw m (List.mem_of_mem_drop hm)) u _ hu hul ha hq2
      refine ⟨k + k', s3, rest, ?_, hi3, ?_, ?_, ?_, ?_⟩
      · simp [RecvState.run, hit, hrun, List.take_add]
      · simp at hk'; omega
      · exact hsuf.trans (List.drop_suffix _ _)
      · simp only [List.drop_drop] at hcase'
        rcases hcase' with h | ⟨h1, h2, h3⟩
        · exact .inl h
        · exact .inr ⟨by simp at h1; omega, h2, h3⟩
      · intro hall
        rcases hprog (fun x hx => hall x (by simp [hx])) with h | h
        · exact .inl h
        · have hn := hall n (by simp)
          simp only [List.length_drop, List.length_cons] at h ⊢
          by_cases hz : rest = []
          · exact .inl hz
          · have := List.length_pos_iff.mpr hz
            right; omega
    · refine ⟨ms.length, s2, [], ?_, hi2, by omega, List.nil_suffix, .inr ⟨rfl, hb, rfl⟩, fun _ => .inl rfl⟩
      have := run_idle hi2 (drain_empty (by omega) _) sched
      simp [RecvState.run, hit, hc, this, ha]

end Nargun

namespace Nargun

open RecvState in
/-- Any fuel above the number of buffered bytes gives the same result, so the fuel of the inner loop is never
what stops it. -/
theorem RecvState.drain_fuel : ∀ (n m : Nat) (s : RecvState), s.dataLen < n → s.dataLen < m →
    s.drain n = s.drain m := by
  intro n
  induction n with
  | zero => intro m s h; omega
  | succ n ih =>
    intro m s hn hm
    cases m with
    | zero => omega
    | succ m =>
      have hc : ∀ (buf : Bytes) (l : Nat), s.dataLen ≥ 4 → l + 4 ≤ s.dataLen →
          drain n { buf := buf, dataStart := 0, dataLen := s.dataLen - (l + 4) } =
          drain m { buf := buf, dataStart := 0, dataLen := s.dataLen - (l + 4) } := by
        intro buf l h1 h2
        exact ih m _ (by simp only; omega) (by simp only; omega)
      unfold RecvState.drain
      by_cases h4 : s.dataLen < 4
      · rw [if_pos h4, if_pos h4]
      · rw [if_neg h4, if_neg h4]
        congr 1; funext tail
        congr 1; funext l
        by_cases hl : l + 4 ≤ s.dataLen
        · simp only [hl, if_true]
          congr 1; funext o
          cases o with
          | none => rfl
          | some msg =>
            simp only
            congr 1; funext buf
            rw [hc buf l (by omega) hl]
        · simp only [hl, if_false]

end Nargun
