import Verif.Proofs.PyNoise

/-!
# Properties of the Python wrapper of the Noise library: C68
-/

set_option linter.unusedSectionVars false

namespace Verif.Props

open Py PyNoise Noise NoiseCrypto
open Spec.PyLink (Link TextArg content)

section
variable [Hashes] [NoiseCrypto]

/-- C68, session: with keys of 32 bytes, the same domain separation and the initiator's key among those that the responder
accepts, `initiator_session`, `responder_session` and `initiator_session_complete` raise nothing. The first message of the
initiator arrives, and the responder then knows the initiator's key. -/
theorem C68_session (ki kr : B32) {dst iname rname name : Option Val} (hd : TextArg dst) (hi : TextArg iname)
    (hr : TextArg rname) (hn : TextArg name) {keys : List (B32 × Option Val)} (hk : xbase ki ∈ keys.map Prod.fst)
    (hnames : ∀ k ∈ keys, TextArg k.2) (hl : keys.length < 2 ^ 32 - 1) (ei er : B32) {v : Val} {m : Bytes}
    (hv : content v = some m) (hm : m.length ≤ 4294967215) :
    ∃ i0 r0 i1 i2 r1 m1 m2 c,
      initiatorSession (.bytes ki.toList) (.bytes (xbase kr).toList) iname rname dst ei = .ok (some (some i0, m1)) ∧
      responderSession (.bytes kr.toList) (keys.map fun k => (.bytes k.1.toList, k.2)) m1 dst name er =
        .ok (some (some r0, m2)) ∧
      initiatorSessionComplete (some i0) m2 = .ok (some (), some i1) ∧
      sendMsg (some i1) v = .ok (some c, some i2) ∧
      readMsg (some r0) c = .ok (some m, some r1) ∧
      Connected i2.sn r1.sn ∧ getPubkey (some r1) = .ok (xbase ki) := by
  have hd' : TextArg (some (dst.getD defaultDst)) := textArg_getD hd
  have hi' : TextArg (some (iname.getD defaultInitiator)) := textArg_getD hi
  have hr' : TextArg (some (rname.getD defaultResponder)) := textArg_getD hr
  have hn' : TextArg (some (name.getD defaultResponder)) := textArg_getD hn
  obtain ⟨R, e1, hR, h1, h2, h3, h4, _, h6⟩ := addPeers_ok keys hnames (deviceCreate (prologueOf (dst.getD defaultDst)) kr)
    ⟨by simp [deviceCreate], by simp [deviceCreate], by simp [deviceCreate], by simp [deviceCreate]⟩ (by simp [deviceCreate]; omega)
  set I0 := deviceCreate (prologueOf (dst.getD defaultDst)) ki with hI0
  have hI : deviceAddPeer I0 (xbase kr) = (some 1, { I0 with peers := [⟨1, xbase kr⟩], peersCounter := 2 }) := by
    simp [deviceAddPeer, I0, deviceCreate]
  set I : Device := { I0 with peers := [⟨1, xbase kr⟩], peersCounter := 2 } with hIdef
  have hmem : xbase ki ∈ R.peers.map (·.s) := by
    obtain ⟨k, hk1, hk2⟩ := List.mem_map.mp hk
    rw [← hk2]
    exact h6 k hk1
  obtain ⟨peer, hp1, hp2⟩ := List.mem_map.mp hmem
  have hfind : R.peers.find? (fun p => p.s == xbase ki) = some peer := by
    have := Mem.find?_nodup (fun p : Peer => p.s) hR.2.2.1 hp1
    rw [hp2] at this
    simpa [beq_eq_decide] using this
  have hpair : Paired I R 1 peer := by
    refine ⟨rfl, ?_, ?_, by simp [I, I0, deviceCreate], ?_, by decide, ⟨⟨1, xbase kr⟩, by simp [I], ?_⟩, hfind⟩
    · rw [h1, h2]; rfl
    · rw [h3]; rfl
    · rw [h4]; simp [deviceCreate]
    · rw [h2]; rfl
  obtain ⟨i0, r0, i1, r1, r2, i2, i3, r3, m1, m2, m3, c1, c2, w1, w2, w3, w4, w5, w6, l1, l2, l3, hcon, hpid, _, _⟩ :=
    C54_handshake hpair ei er (em1 := pack 0 []) (em2 := pack 0 []) (em3 := pack 5 m) ⟨by simp [pack], .inl rfl⟩
      ⟨by simp [pack], .inl rfl⟩ ⟨by simpa [pack] using hm, .inr ⟨5, rfl, by decide⟩⟩
  have q1 : (createInitiator I 1 ei) = (some i0, (createInitiator I 1 ei).2) := Prod.ext c1 rfl
  have q2 : (createResponder R er) = (some r0, (createResponder R er).2) := Prod.ext c2 rfl
  have pI : (createInitiator I 1 ei).2.peers = I.peers := by
    unfold createInitiator; split <;> [rfl; (split <;> rfl)]
  have pR : (createResponder R er).2.peers = R.peers := by
    unfold createResponder; split <;> rfl
  simp only [pack, List.length_nil] at l1 l2 l3
  refine ⟨⟨i1, I.peers⟩, ⟨r2, R.peers⟩, ⟨i2, I.peers⟩, ⟨i3, I.peers⟩, ⟨r3, R.peers⟩, m1, m2, m3, ?_, ?_, ?_, ?_, ?_, hcon, ?_⟩
  · simp only [initiatorSession, pubkey_ok, andThen_some, createDevice_ok hd' hi', addPeer_ok _ hr', ← hI0, hI, getPeerid,
      andThen_ret, createSessionInitiator]
    rw [q1]
    simp only [andThen_ret, initiator1stMsg, write, w1, C.ok_bind, pI]
    rfl
  · simp only [responderSession, pubkey_ok, andThen_some, createDevice_ok hd' hn', e1, createSessionResponder]
    rw [q2]
    simp only [andThen_ret, responder1stMsg, read_short 0 (by omega : m1.length < 4294967296), pR, w2, C.ok_bind, unpack,
      pack, List.length_nil, if_true, initiator1stMsg, write]
    simp only [pack] at w3
    rw [w3]
    rfl
  · simp only [initiatorSessionComplete, initiatorHandshakeFinish, read_short 0 (by omega : m2.length < 4294967296), w4,
      C.ok_bind, unpack, pack, List.length_nil, if_true]
  · rw [sendMsg_bytes _ hv (by omega)]
    simp only [write, w5]
  · simp only [readMsg, read_short 2 (by omega : m3.length < 4294967296), w6, unpack, pack]
    simp
  · have hid : R.peers.find? (fun p => p.id == peer.id) = some peer := by
      simpa [beq_eq_decide] using Mem.find?_nodup (fun p : Peer => p.id) hR.2.2.2 hp1
    have hne : peer.id ≠ 0 := by
      intro h
      have := (hR.1 peer hp1).1
      rw [h] at this
      exact absurd this (by decide)
    simp only [getPubkey, hpid, hne, if_false, hid, hp2]

/-- C68, delivery: over two connected sessions, in any order of sending and reading, `read_msg` raises nothing and returns
the messages that `send_msg` accepted, in order; strings arrive as their UTF-8. The messages are shorter than 2³² bytes.

Partial: see `C68_long_message_violated`. -/
theorem C68_delivers_partial {i r : PySession} (h : Connected i.sn r.sn) {evs : List Spec.PyLink.Ev}
    (he : ∀ e ∈ evs, ∀ w v, e = .send w v → ∃ b, content v = some b ∧ b.length < 2 ^ 32) :
    ∃ l, (Link.init i r).run evs = .ok l ∧ l.raised = false ∧ ∀ w, l.got w <+: l.sent w := by
  have hsim : Sim (Link.init i r) (Spec.NoiseXK.Net.init i.sn r.sn) := by
    obtain ⟨ti, tr, _, _, h3, h4, _⟩ := h
    refine ⟨?_, rfl, rfl, rfl, rfl, ?_, fun w c hc => by cases hc⟩
    · rintro (_ | _) <;> exact ⟨_, rfl, rfl⟩
    · rintro (_ | _)
      · exact ⟨ti, h3⟩
      · exact ⟨tr, h4⟩
  obtain ⟨l, e1, hs⟩ := sim_run [] evs hsim (fun e hm => by
    cases e with
    | send w v => exact he _ hm w v rfl
    | deliver w => trivial)
  obtain ⟨h1, h2⟩ := C54_transport h [] (evs.map evOf)
  refine ⟨l, e1, hs.raised.trans h1, fun w => ?_⟩
  rw [hs.got, hs.sent]
  exact (h2 w).1

/-- C68, length: the length of a message is passed modulo 2³²: of a longer message only the beginning is sent, without an
exception. -/
theorem C68_long_message_violated (s : Option PySession) {b : Bytes} (hb : 2 ^ 32 ≤ b.length) :
    sendMsg s (.bytes b) = sendMsg s (.bytes (b.take (b.length % 2 ^ 32))) ∧ b.take (b.length % 2 ^ 32) ≠ b := by
  have hlt : b.length % 2 ^ 32 < 2 ^ 32 := Nat.mod_lt _ (by decide)
  have hlen : (b.take (b.length % 2 ^ 32)).length = b.length % 2 ^ 32 := by
    rw [List.length_take]; omega
  refine ⟨?_, fun h => by rw [h] at hlen; omega⟩
  have e : (4294967296 : ℕ) = 2 ^ 32 := by decide
  simp only [sendMsg, encodeStr, Val.len, Val.ptr, hlen, e, Nat.mod_mod]
  rw [rd_ok (by simp; omega), rd_ok (by simp; omega)]
  simp only [List.drop_zero]
  rw [List.take_append_of_le_length (by omega), List.take_append_of_le_length (by omega), List.take_take, min_self]

/-- C68, prologue: a string as prologue is passed as wide characters, of which only the first quarter is used: devices for
different domains are the same. -/
theorem C68_str_prologue_violated {s s' : List UInt32} (hl : s.length = s'.length) (hs : s.length < 2 ^ 32)
    (hp : s.take ((s.length + 3) / 4) = s'.take ((s.length + 3) / 4)) (name : Option Val) (key : Val) :
    createDevice (.str s) name key = createDevice (.str s') name key := by
  have hw : ∀ c, (wchar c).length = 4 := fun c => by simp [wchar]
  have hf : ∀ l : List UInt32, (l.flatMap wchar).length = 4 * l.length := by
    intro l
    induction l with
    | nil => rfl
    | cons c l ih => rw [List.flatMap_cons, List.length_append, ih, hw, List.length_cons]; omega
  have hcut : ∀ l : List UInt32, l.length = s.length → ((l.flatMap wchar ++ [0, 0, 0, 0]).drop 0).take s.length =
      ((l.take ((s.length + 3) / 4)).flatMap wchar).take s.length := by
    intro l hl
    rw [List.drop_zero, List.take_append_of_le_length (by rw [hf]; omega)]
    conv_lhs => rw [← List.take_append_drop ((s.length + 3) / 4) l, List.flatMap_append]
    rw [List.take_append_of_le_length (by rw [hf, List.length_take]; omega)]
  have hrd : rd (s.flatMap wchar ++ [0, 0, 0, 0]) 0 (s.length % 4294967296) =
      rd (s'.flatMap wchar ++ [0, 0, 0, 0]) 0 (s'.length % 4294967296) := by
    rw [← hl, Nat.mod_eq_of_lt (by omega : s.length < 4294967296), rd_ok (by rw [List.length_append, hf]; omega),
      rd_ok (by rw [List.length_append, hf]; omega), hcut s rfl, hcut s' hl.symm, hp]
  simp only [createDevice, Val.len, Val.ptr, andThen_conv, hrd]

/-- C68, failure: a peer that is not on the list gives no exception but a session that is NULL, and the next call reads
through it. -/
theorem C68_unknown_peer_violated {dv : Device} {pid : UInt32} (h : ∀ p ∈ dv.peers, p.id ≠ pid) (e : B32) :
    createSessionInitiator dv pid e = .ok (some none) ∧ initiator1stMsg none = .ub .null := by
  have hf : (dv.peers.find? fun p => p.id == pid) = none := by
    rw [List.find?_eq_none]
    intro p hp
    simpa using h p hp
  refine ⟨?_, rfl⟩
  unfold createSessionInitiator createInitiator
  rw [hf]
  split <;> simp_all [ret]

/-- C68, peer: before a responder has read the initiator's first message, `get_pubkey` reads through NULL. -/
theorem C68_early_pubkey_violated (dv : Device) (e : B32) {s : PySession}
    (h : createSessionResponder dv e = .ok (some (some s))) : getPubkey (some s) = .ub .null := by
  unfold createSessionResponder createResponder at h
  split at h
  · rename_i sn dv' heq
    split at heq
    · simp at heq
    · simp only [Prod.mk.injEq, Option.some.injEq] at heq
      simp only [ret, C.ok.injEq, Option.some.injEq] at h
      rw [← h, ← heq.1]
      rfl
  · simp [ret] at h

/-- C68, turns: a responder that sends first gets an exception, and its session is lost: it refuses every message from then
on. -/
theorem C68_responder_first_violated {s : PySession} {hs : HS} (hst : s.sn.st = .handshake hs) (h2 : hs.step = 2)
    (hr : s.sn.role = .responder) {m : Bytes} (hm : m.length ≤ 4294967215) :
    ∃ s', sendMsg (some s) (.bytes m) = .ok (none, some s') ∧ ∀ c, ∃ s'', readMsg (some s') c = .ok (none, some s'') := by
  obtain ⟨⟨r, pid, st⟩, peers⟩ := s
  simp only at hst hr
  subst hst hr
  rw [sendMsg_bytes _ (b := m) rfl (by omega)]
  refine ⟨⟨⟨.responder, pid, .handshake { hs with step := 4 }⟩, peers⟩, ?_, fun c => ?_⟩
  · simp [write, sessionWrite, h2, nextLen, hm, pack, secOk, handshakeWrite]
  · exact ⟨⟨⟨.responder, pid, .handshake { hs with step := 4 }⟩, peers⟩, by simp [readMsg, PyNoise.read, sessionRead]⟩

/-- C68, sizes: a key of less than 31 bytes is read beyond its end. -/
theorem C68_short_key_violated {b : Bytes} (h : b.length < 31) (dv : Device) {name : Option Val} (hn : TextArg name) :
    pubkey (.bytes b) = .ub .oob ∧ addPeer dv name (.bytes b) = .ub .oob := by
  have hb : b32At (b ++ [0]) 0 = .ub .oob := by
    unfold b32At rd
    rw [if_neg (by simp; omega)]
    rfl
  obtain ⟨nm, h5, h6⟩ := namep_ok hn
  constructor
  · simp only [pubkey, Val.ptr, andThen_conv, hb]; rfl
  · simp only [addPeer, h5, charp, andThen_conv, hb]; rfl

/-- C68, arrays: a key in a character array has no byte after its end. An array of 32 bytes stands for the same key as the
`bytes` object; a shorter one is read beyond its end. -/
theorem C68_array_key_violated (dv : Device) {name : Option Val} (hn : TextArg name) :
    (∀ k : B32, pubkey (.array k.toList) = pubkey (.bytes k.toList) ∧
      addPeer dv name (.array k.toList) = addPeer dv name (.bytes k.toList)) ∧
    ∀ b : Bytes, b.length < 32 → pubkey (.array b) = .ub .oob ∧ addPeer dv name (.array b) = .ub .oob := by
  obtain ⟨nm, h5, h6⟩ := namep_ok hn
  refine ⟨fun k => ?_, fun b h => ?_⟩
  · have hk : b32At k.toList 0 = .ok k := by
      unfold b32At
      rw [rd_ok (by simp)]
      simp only [C.ok_bind, List.drop_zero]
      rw [List.take_of_length_le (by simp), toB32_toList]
    constructor
    · simp only [pubkey, Val.ptr, andThen_conv, hk, b32At_vec]
    · simp only [addPeer, h5, charp, andThen_conv, hk, b32At_vec]
  · have hb : b32At b 0 = .ub .oob := by
      unfold b32At rd
      rw [if_neg (by omega)]
      rfl
    constructor
    · simp only [pubkey, Val.ptr, andThen_conv, hb]; rfl
    · simp only [addPeer, h5, charp, andThen_conv, hb]; rfl

/-- C68, first reply: what came with the first message of the initiator is not sent back. For every payload the responder answers
with the message that the library writes for an empty one. -/
theorem C68_first_reply {s : PySession} {msg out : Bytes} {em : Encap} {sn sn' : Session} {b : Bytes} (hm : msg.length < 2 ^ 32)
    (hr : sessionRead s.peers s.sn msg = (.success, some em, sn)) (hu : unpack 0 em = some b)
    (hw : sessionWrite (pack 0 []) sn = (.success, some out, sn')) :
    responder1stMsg (some s) msg = .ok (some out, some ⟨sn', s.peers⟩) := by
  simp only [responder1stMsg, read_short 0 (by omega : msg.length < 4294967296), hr, C.ok_bind, hu, initiator1stMsg, write, hw]

/-- C68, strings: `content` of a string is its UTF-8 encoding. -/
theorem C68_utf8 (s : String) : content (.str (s.toList.map Char.val)) = some s.toUTF8.data.toList := by
  have h1 : ∀ c : Char, utf8Char c.val = some (String.utf8EncodeChar c) := by
    intro c
    unfold utf8Char
    rw [if_pos c.valid]
    congr 2
    exact Char.ofNat_toNat c
  have h2 : ∀ l : List Char, utf8 (l.map Char.val) = some (l.flatMap String.utf8EncodeChar) := by
    intro l
    unfold utf8
    induction l with
    | nil => rfl
    | cons c l ih =>
      simp only [List.map_cons, List.mapM_cons, h1]
      cases h : List.mapM utf8Char (List.map Char.val l) with
      | none => rw [h] at ih; simp at ih
      | some x => rw [h] at ih; simp at ih; simp [ih]
  simp only [content, h2]
  rw [String.toUTF8_eq_toByteArray, ← String.utf8Encode_toList]
  simp [List.utf8Encode]

end

/-! ### The hypotheses can be met -/

section
attribute [local instance] Toy.hashes Toy.noise

/-- Two sessions made by the wrapper: the second key on the responder's list is the initiator's. -/
theorem exPySession : ∃ i r : PySession, Connected i.sn r.sn := by
  obtain ⟨_, _, _, i, r, _, _, _, _, _, _, _, _, h, _⟩ :=
    C68_session (B32.ofNat 5) (B32.ofNat 7) (dst := none) (iname := some (.str [65, 108])) (rname := none)
      (name := some (.bytes [66])) trivial trivial trivial trivial
      (keys := [(B32.ofNat 9, none), (xbase (B32.ofNat 5), some (.str [65]))]) (by simp) (by simp [TextArg]) (by simp)
      (B32.ofNat 11) (B32.ofNat 13) (v := .str [104, 228]) (m := [104, 195, 164]) (by decide +kernel) (by simp)
  exact ⟨i, r, h⟩

example : ∃ (i r : PySession) (l : Link), (Link.init i r).run
    [.send .initiator (.str [228]), .send .responder (.bytes []), .deliver .responder, .deliver .initiator] = .ok l ∧
    l.raised = false := by
  obtain ⟨i, r, h⟩ := exPySession
  obtain ⟨l, h1, h2, _⟩ := C68_delivers_partial h
    (evs := [.send .initiator (.str [228]), .send .responder (.bytes []), .deliver .responder, .deliver .initiator])
    (by
      intro e he w v hv
      subst hv
      simp only [List.mem_cons, Spec.PyLink.Ev.send.injEq, List.not_mem_nil, reduceCtorEq, or_false] at he
      rcases he with ⟨_, rfl⟩ | ⟨_, rfl⟩
      · exact ⟨[195, 164], by decide +kernel, by simp⟩
      · exact ⟨[], rfl, by simp⟩)
  exact ⟨i, r, l, h1, h2⟩

/-- The two-byte message `ab` is sent for every message of 2³² + 2 bytes that begins with it. -/
example (s : Option PySession) {l : Bytes} (hl : l.length = 2 ^ 32) :
    sendMsg s (.bytes (97 :: 98 :: l)) = sendMsg s (.bytes [97, 98]) := by
  have h := (C68_long_message_violated s (b := 97 :: 98 :: l) (by simp only [List.length_cons]; omega)).1
  have e : (97 :: 98 :: l).length % 2 ^ 32 = 2 := by simp only [List.length_cons]; omega
  rw [h, e, List.take_succ_cons, List.take_succ_cons, List.take_zero]

/-- The domains "test1" and "texyz": of five characters two are used -/
example : createDevice (.str [116, 101, 115, 116, 49]) none (.bytes (List.replicate 32 1)) =
    createDevice (.str [116, 101, 120, 121, 122]) none (.bytes (List.replicate 32 1)) :=
  C68_str_prologue_violated rfl (by decide) (by decide) none _

example : createSessionInitiator exI 2 (B32.ofNat 3) = .ok (some none) :=
  (C68_unknown_peer_violated (by decide) _).1

example : ∃ s, createSessionResponder exR (B32.ofNat 3) = .ok (some (some s)) ∧ getPubkey (some s) = .ub .null := by
  have h : ∃ s, createSessionResponder exR (B32.ofNat 3) = .ok (some (some s)) := ⟨_, rfl⟩
  obtain ⟨s, hs⟩ := h
  exact ⟨s, hs, C68_early_pubkey_violated _ _ hs⟩

example : ∃ dv, addPeer dv none (.bytes [1, 2, 3]) = .ub .oob :=
  ⟨exI, (C68_short_key_violated (by decide) exI (name := none) trivial).2⟩

/-- `C68_first_reply` for a first message with the payload 1, 2, 3. -/
example : ∃ (s : PySession) (msg out : Bytes) (s' : PySession), responder1stMsg (some s) msg = .ok (some out, some s') ∧
    msg.length = 51 ∧ out.length = 48 := by
  obtain ⟨i0, r0, i1, r1, r2, i2, i3, r3, m1, m2, m3, -, -, -, w2, w3, -, -, -, l1, l2, -⟩ :=
    C54_handshake exPaired (B32.ofNat 11) (B32.ofNat 13) (em1 := pack 0 [1, 2, 3]) (em2 := pack 0 []) (em3 := pack 5 [])
      ⟨by simp [pack], .inr ⟨0, rfl, by decide⟩⟩ ⟨by simp [pack], .inl rfl⟩ ⟨by simp [pack], .inr ⟨5, rfl, by decide⟩⟩
  simp only [pack, List.length_cons, List.length_nil] at l1 l2
  exact ⟨⟨r0, exR.peers⟩, m1, m2, ⟨r2, exR.peers⟩, C68_first_reply (b := [1, 2, 3]) (by omega) w2 (by simp [unpack, pack]) w3,
    by omega, by omega⟩

example : ∃ dv, addPeer dv (some (.bytes [65])) (.array (List.replicate 31 7)) = .ub .oob :=
  ⟨exI, ((C68_array_key_violated exI (name := some (.bytes [65])) trivial).2 _ (by simp)).2⟩

end

end Verif.Props
