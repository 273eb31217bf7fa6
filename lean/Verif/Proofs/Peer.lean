import Verif.Model.Peer
import Verif.Proofs.Tp

/-!
# Lemmas about the steps of a peer

Every iteration of a loop is described by the state after it.
-/

set_option linter.unusedSectionVars false

namespace Verif.TpDkg

open H Wire Spec.Wire

/-- `b` written to `buf` at `off`. -/
def splice {α : Type} (buf : List α) (off : ℕ) (b : List α) : List α := buf.take off ++ b ++ buf.drop (off + b.length)

section Splice

variable {α : Type} {buf b : List α} {off : ℕ}

theorem splice_length (h : off + b.length ≤ buf.length) : (splice buf off b).length = buf.length := by
  unfold splice; simp; omega

theorem wr_splice (h : off + b.length ≤ buf.length) : wr buf off b = .ok (splice buf off b) := wr_ok h

theorem rd_slice' {k : ℕ} (h : off + k ≤ buf.length) : rd buf off k = .ok (slice buf off k) := rd_ok h

theorem slice_splice_same (h : off + b.length ≤ buf.length) : slice (splice buf off b) off b.length = b := by
  unfold splice slice
  rw [List.append_assoc, List.drop_append]
  have : (buf.take off).length = off := by simp; omega
  rw [this, List.drop_of_length_le (by omega)]
  simp

theorem slice_splice_before {a k : ℕ} (h : off + b.length ≤ buf.length) (ha : a + k ≤ off) :
    slice (splice buf off b) a k = slice buf a k := by
  unfold splice slice
  rw [List.append_assoc, List.drop_append_of_le_length (by simp; omega), List.take_append_of_le_length (by simp; omega)]
  rw [List.drop_take, List.take_take]
  congr 1
  omega

theorem slice_splice_after {a k : ℕ} (h : off + b.length ≤ buf.length) (ha : off + b.length ≤ a) :
    slice (splice buf off b) a k = slice buf a k := by
  unfold splice slice
  have e : (buf.take off ++ b).length = off + b.length := by simp; omega
  rw [List.drop_append, List.drop_of_length_le (by omega), e, List.nil_append, List.drop_drop]
  congr 2
  omega

theorem slice_length {a k : ℕ} (h : a + k ≤ buf.length) : (slice buf a k).length = k := by
  unfold slice; simp; omega

theorem slice_sub {a k c m : ℕ} (h : c + m ≤ k) : slice (slice buf a k) c m = slice buf (a + c) m := by
  unfold slice
  rw [List.drop_take, List.take_take, List.drop_drop]
  congr 1
  omega

theorem slice_add {a k m : ℕ} : slice buf a (k + m) = slice buf a k ++ slice buf (a + k) m := by
  unfold slice
  rw [List.take_add, List.drop_drop]

theorem slice_all : slice buf 0 buf.length = buf := by simp [slice]

end Splice

namespace Peer

section Helpers

variable {U : Prop} {E : Int → PRun → Prop} {s : PRun}

theorem wp_dump {Q : Unit → PRun → Prop} {log : Bool} {buf : Bytes} {off len : ℕ} (h : off + len ≤ buf.length) :
    Wp (dump log buf off len) U E Q s ↔ Q () s := by
  unfold dump
  split
  · rw [wp_bind, wp_lift_ok (rd_ok h), wp_pure]
  · rfl

theorem wp_dumpOut {Q : Unit → PRun → Prop} {log : Bool} {off len : ℕ} (h : off + len ≤ s.out.length) :
    Wp (dumpOut log off len) U E Q s ↔ Q () s := by
  unfold dumpOut
  rw [wp_bind, wp_get, wp_dump h]

theorem wp_setCtx {Q : Unit → PRun → Prop} (f : PeerState → PeerState) :
    Wp (setCtx f) U E Q s ↔ Q () { s with ctx := f s.ctx } := Iff.rfl

theorem wp_setOut {Q : Unit → PRun → Prop} {off : ℕ} {b : Bytes} (hi : off + b.length ≤ s.out.length) :
    Wp (setOut off b) U E Q s ↔ Q () { s with out := splice s.out off b } := by
  unfold setOut
  rw [wp_bind, wp_get, wp_bind, wp_lift_ok (wr_ok hi), wp_modify]
  rfl

/-- `b` written if there is something to write. -/
def spliceOpt (buf : Bytes) (off : ℕ) (b : Option Bytes) : Bytes :=
  match b with
  | none => buf
  | some b => splice buf off b

theorem spliceOpt_length {buf : Bytes} {off : ℕ} {b : Option Bytes}
    (h : ∀ m, b = some m → off + m.length ≤ buf.length) : (spliceOpt buf off b).length = buf.length := by
  cases b with
  | none => rfl
  | some m => exact splice_length (h m rfl)

theorem wp_copy {Q : Unit → PRun → Prop} {off : ℕ} {b : Option Bytes}
    (hi : ∀ m, b = some m → off + m.length ≤ s.out.length) :
    Wp (copy off b) U E Q s ↔ Q () { s with out := spliceOpt s.out off b } := by
  unfold copy
  cases b with
  | none => rfl
  | some m => exact wp_setOut (hi m rfl)

theorem wp_transcript {Q : Unit → PRun → Prop} {input : Bytes} :
    Wp (transcript input) U E Q s ↔
      Q () { s with ctx := { s.ctx with transcript := updateTranscript s.ctx.transcript input } } := Iff.rfl

theorem wp_sigPkOf {Q : B32 → PRun → Prop} {i : ℕ} (hi : i < s.ctx.sigPks.length) :
    Wp (sigPkOf i) U E Q s ↔ Q s.ctx.sigPks[i] s := by
  unfold sigPkOf
  rw [wp_bind, wp_get, wp_lift_ok (ld_ok hi)]

theorem wp_getDev {Q : Noise.Device → PRun → Prop} {dv : Noise.Device} (h : s.ctx.dev = .live dv) :
    Wp getDev U E Q s ↔ Q dv s := by
  unfold getDev
  rw [wp_bind, wp_get, wp_bind, wp_lift_ok (a := some dv) (by rw [h]; rfl)]
  rfl

theorem wp_setOuts {Q : Unit → PRun → Prop} {i : ℕ} {p : Ptr Noise.Session} (hi : i < s.ctx.outs.length) :
    Wp (setOuts i p) U E Q s ↔ Q () { s with ctx := { s.ctx with outs := s.ctx.outs.set i p } } := by
  unfold setOuts
  rw [wp_bind, wp_get, wp_bind, wp_lift_ok (st_ok hi), wp_setCtx]

theorem wp_setIns {Q : Unit → PRun → Prop} {i : ℕ} {p : Ptr Noise.Session} (hi : i < s.ctx.ins.length) :
    Wp (setIns i p) U E Q s ↔ Q () { s with ctx := { s.ctx with ins := s.ctx.ins.set i p } } := by
  unfold setIns
  rw [wp_bind, wp_get, wp_bind, wp_lift_ok (st_ok hi), wp_setCtx]

theorem wp_setKeys {Q : Unit → PRun → Prop} {i : ℕ} {pk npk : B32} (hi : i < s.ctx.sigPks.length)
    (hj : i < s.ctx.noisePks.length) :
    Wp (setKeys i pk npk) U E Q s ↔ Q () { s with ctx := { s.ctx with
      sigPks := s.ctx.sigPks.set i pk
      noisePks := s.ctx.noisePks.set i npk } } := by
  unfold setKeys
  rw [wp_bind, wp_get, wp_bind, wp_lift_ok (st_ok hi), wp_bind, wp_lift_ok (st_ok hj), wp_setCtx]

theorem wp_setCommitments {Q : Unit → PRun → Prop} {off : ℕ} {data : List B32}
    (hi : off + data.length ≤ s.ctx.commitments.length) :
    Wp (setCommitments off data) U E Q s ↔
      Q () { s with ctx := { s.ctx with commitments := splice s.ctx.commitments off data } } := by
  unfold setCommitments
  rw [wp_bind, wp_get, wp_bind, wp_lift_ok (wr_ok hi), wp_setCtx]
  rfl

theorem wp_setXshare {Q : Unit → PRun → Prop} {i : ℕ} {x : Share} (hi : i < s.ctx.xshares.length) :
    Wp (setXshare i x) U E Q s ↔ Q () { s with ctx := { s.ctx with xshares := s.ctx.xshares.set i x } } := by
  unfold setXshare
  rw [wp_bind, wp_get, wp_bind, wp_lift_ok (st_ok hi), wp_setCtx]

theorem wp_addComplaint {Q : Unit → PRun → Prop} {p : UInt16} (hi : s.ctx.complaintsLen.toNat < s.ctx.complaints.length) :
    Wp (addComplaint p) U E Q s ↔ Q () { s with ctx := { s.ctx with
      complaints := s.ctx.complaints.set s.ctx.complaintsLen.toNat p
      complaintsLen := s.ctx.complaintsLen + 1 } } := by
  unfold addComplaint
  rw [wp_bind, wp_get, wp_bind, wp_lift_ok (st_ok hi), wp_setCtx]

theorem wp_addMine {Q : Unit → PRun → Prop} {p : UInt8} (hi : s.ctx.myLen.toNat < s.ctx.mine.length) :
    Wp (addMine p) U E Q s ↔ Q () { s with ctx := { s.ctx with
      mine := s.ctx.mine.set s.ctx.myLen.toNat p
      myLen := s.ctx.myLen + 1 } } := by
  unfold addMine
  rw [wp_bind, wp_get, wp_bind, wp_lift_ok (st_ok hi), wp_setCtx]

variable [Signing]

/-- The context after the reception of a message from peer `i`. -/
def received (ctx : PeerState) (i : ℕ) (last : UInt64) (k : ℕ) : PeerState :=
  { ctx with lastTs := ctx.lastTs.set i last, ticks := ctx.ticks + k }

/-- The context after the reception of a message from the trusted party. -/
def receivedTp (ctx : PeerState) (last : UInt64) (k : ℕ) : PeerState :=
  { ctx with tpLastTs := last, ticks := ctx.ticks + k }

theorem wp_recv {Q : Int → PRun → Prop} {clock : ℕ → UInt64} {input : Bytes} {off len : ℕ} {msgno rcp : UInt8}
    {pk : B32} {i : ℕ} (hb : off + len ≤ input.length) (hl : 111 ≤ len) (hi : i < s.ctx.lastTs.length)
    (hQ : ∀ r last k, recvMsg (clock s.ctx.ticks) input off len msgno (idx i) rcp pk s.ctx.sid s.ctx.eps s.ctx.lastTs[i] =
      .ok (r, last, k) → Q r { s with ctx := received s.ctx i last k }) :
    Wp (recv clock input off len msgno rcp pk i) U E Q s := by
  obtain ⟨⟨r, last, k⟩, hr⟩ := recvMsg_safe (now := clock s.ctx.ticks) (msgno := msgno) (frm := idx i) (rcp := rcp)
    (pk := pk) (sid := s.ctx.sid) (eps := s.ctx.eps) (last := s.ctx.lastTs[i]) hb hl
  unfold recv
  rw [wp_bind, wp_get, wp_bind, wp_lift_ok (ld_ok hi), wp_bind, wp_lift_ok hr]
  dsimp only
  rw [wp_bind, wp_lift_ok (st_ok hi), wp_bind, wp_setCtx, wp_pure]
  exact hQ r last k hr

theorem wp_recvTp {Q : Int → PRun → Prop} {clock : ℕ → UInt64} {input : Bytes} {msgno rcp : UInt8}
    (hl : 111 ≤ input.length)
    (hQ : ∀ r last k, recvMsg (clock s.ctx.ticks) input 0 input.length msgno 0 rcp s.ctx.tpSigPk s.ctx.sid s.ctx.eps
      s.ctx.tpLastTs = .ok (r, last, k) → Q r { s with ctx := receivedTp s.ctx last k }) :
    Wp (recvTp clock input msgno rcp) U E Q s := by
  obtain ⟨⟨r, last, k⟩, hr⟩ := recvMsg_safe (buf := input) (off := 0) (len := input.length) (now := clock s.ctx.ticks)
    (msgno := msgno) (frm := 0) (rcp := rcp) (pk := s.ctx.tpSigPk) (sid := s.ctx.sid) (eps := s.ctx.eps)
    (last := s.ctx.tpLastTs) (by omega) hl
  unfold recvTp
  rw [wp_bind, wp_get, wp_bind, wp_lift_ok hr]
  dsimp only
  rw [wp_bind, wp_setCtx, wp_pure]
  exact hQ r last k hr

/-- The signed header written by a peer. -/
def header (ctx : PeerState) (now : UInt64) (len : ℕ) (msgno rcp : UInt8) : Bytes :=
  encode (Signing.sign ctx.sigSk (Header.mk msgno (UInt32.ofNat len) ctx.index rcp now ctx.sid).encode)
    ⟨msgno, UInt32.ofNat len, ctx.index, rcp, now, ctx.sid⟩ []

theorem header_length (ctx : PeerState) (now : UInt64) (len : ℕ) (msgno rcp : UInt8) :
    (header ctx now len msgno rcp).length = 111 := by
  unfold header; rw [encode_length]; rfl

theorem wp_send {Q : Unit → PRun → Prop} {clock : ℕ → UInt64} {off len : ℕ} {msgno rcp : UInt8}
    (hb : off + 111 ≤ s.out.length) :
    Wp (send clock off len msgno rcp) U E Q s ↔
      Q () { s with
        out := splice s.out off (header s.ctx (clock s.ctx.ticks) len msgno rcp)
        ctx := { s.ctx with ticks := s.ctx.ticks + 1 } } := by
  unfold send
  rw [wp_bind, wp_get, wp_bind, wp_lift_ok (sendMsg_eq hb), wp_modify]
  have := header_length s.ctx (clock s.ctx.ticks) len msgno rcp
  unfold splice
  rw [this, List.append_assoc]
  rfl

end Helpers

variable [Signing] [Hashes] [NoiseCrypto]

/-! ### Messages of the Noise helpers -/

theorem initNoise_length {dv : Noise.Device} {slot : Ptr Noise.Session} {rpk epriv : B32} {m : Bytes}
    (h : (initNoise dv slot rpk epriv).2.2.2 = some m) : m.length = 48 := by
  unfold initNoise at h
  split at h
  · cases h
  split at h
  · cases h
  split at h
  dsimp only at h
  split at h
  · cases h
  split at h
  · cases h
  · cases h; rename_i hh; simpa using hh

theorem respondNoise_length {dv : Noise.Device} {inmsg : Bytes} {epriv : B32} {m : Bytes}
    (h : (respondNoise dv inmsg epriv).2.2.2 = some m) : m.length = 48 := by
  unfold respondNoise at h
  split at h
  · cases h
  split at h
  split at h
  · cases h
  split at h
  · cases h
  split at h
  dsimp only at h
  split at h
  · cases h
  split at h
  · cases h
  · cases h; rename_i hh; simpa using hh

theorem encryptNoise_length {slot slot' : Ptr Noise.Session} {input m : Bytes} {l : ℕ} {r : Int}
    (h : encryptNoise slot input l = .ok (r, slot', some m)) : m.length = l := by
  unfold encryptNoise at h
  rw [C.bind_eq_ok] at h
  obtain ⟨x, _, h⟩ := h
  split at h
  · cases h
  split at h
  · cases h
  split at h
  split at h
  · cases h
  dsimp only at h
  split at h
  · cases h
  · cases h; rename_i hh; simpa using hh

theorem decryptNoise_length {dv : Noise.Device} {slot slot' : Ptr Noise.Session} {input m : Bytes} {l : ℕ} {r : Int}
    (h : decryptNoise dv slot input l = .ok (r, slot', some m)) : m.length = l := by
  unfold decryptNoise at h
  rw [C.bind_eq_ok] at h
  obtain ⟨x, _, h⟩ := h
  split at h
  · cases h
  split at h
  · cases h
  split at h
  split at h
  · cases h
  split at h
  · cases h
  split at h
  · cases h
  · cases h; rename_i hh; simpa using hh

/-! ### Iterations -/

section Bodies

variable {U : Prop} {E : Int → PRun → Prop} {s : PRun} {clock : ℕ → UInt64} {log : Bool} {rnd : Rnd} {input : Bytes}

/-- The signing key in the `i`-th message of the broadcast of step 3. -/
def pk2 (input : Bytes) (i : ℕ) : B32 := toB32 (slice input (111 + i * 175 + 111) 32)

/-- The Noise key in the `i`-th message of the broadcast of step 3. -/
def npk2 (input : Bytes) (i : ℕ) : B32 := toB32 (slice input (111 + i * 175 + 111 + 32) 32)

/-- After iteration `i` of step 5. -/
def after5 (clock : ℕ → UInt64) (rnd : Rnd) (input : Bytes) (dv : Noise.Device) (slot : Ptr Noise.Session) (i : ℕ)
    (last : UInt64) (k : ℕ) (s : PRun) : PRun :=
  let r := initNoise dv slot (npk2 input i) (rnd.einit i)
  { ctx := { received s.ctx i last k with
      sigPks := s.ctx.sigPks.set i (pk2 input i)
      noisePks := s.ctx.noisePks.set i (npk2 input i)
      dev := .live r.2.1
      outs := s.ctx.outs.set i r.2.2.1
      ticks := s.ctx.ticks + k + 1 }
    out := splice (spliceOpt s.out (i * 159 + 111) r.2.2.2) (i * 159)
      (header s.ctx (clock (s.ctx.ticks + k)) 159 4 (idx i)) }

theorem wp_step5Body {Q : Unit → PRun → Prop} {i : ℕ} {dv : Noise.Device} (hin : 111 + (i + 1) * 175 ≤ input.length)
    (hout : (i + 1) * 159 ≤ s.out.length) (hts : i < s.ctx.lastTs.length) (hpk : i < s.ctx.sigPks.length)
    (hnpk : i < s.ctx.noisePks.length) (houts : i < s.ctx.outs.length) (hdev : s.ctx.dev = .live dv)
    (hE : ∀ r last k, recvMsg (clock s.ctx.ticks) input (111 + i * 175) 175 2 (idx i) 0xff (pk2 input i) s.ctx.sid
      s.ctx.eps s.ctx.lastTs[i] = .ok (r, last, k) → r ≠ 0 → E (64 + r) { s with ctx := received s.ctx i last k })
    (hQ : ∀ last k, recvMsg (clock s.ctx.ticks) input (111 + i * 175) 175 2 (idx i) 0xff (pk2 input i) s.ctx.sid
      s.ctx.eps s.ctx.lastTs[i] = .ok (0, last, k) → Q () (after5 clock rnd input dv s.ctx.outs[i] i last k s)) :
    Wp (step5Body clock log rnd input i) U E Q s := by
  unfold step5Body
  dsimp only [msg2Size, hdrSize, msg4Size]
  rw [wp_bind, wp_dump (by omega), wp_bind, wp_lift_ok (rd_slice' (by omega)), wp_bind]
  refine wp_recv (by omega) (by omega) hts fun r last k hr => ?_
  rw [wp_ite]
  refine ⟨fun h0 => hE r last k hr h0, fun h0 => ?_⟩
  have h0 : r = 0 := by simpa using h0
  subst h0
  have hlen : ∀ m, (initNoise dv s.ctx.outs[i] (npk2 input i) (rnd.einit i)).2.2.2 = some m →
      i * 159 + 111 + m.length ≤ s.out.length := fun m hm => by have := initNoise_length hm; omega
  rw [wp_bind, wp_lift_ok (rd_slice' (by omega)), wp_bind, wp_setKeys (by exact hpk) (by exact hnpk), wp_bind]
  unfold initSession
  rw [wp_bind, wp_getDev (dv := dv) (by exact hdev), wp_bind, wp_get, wp_bind, wp_lift_ok (ld_ok (by exact houts)),
    wp_bind, wp_setCtx, wp_bind, wp_setOuts (by exact houts), wp_copy (by exact hlen), wp_bind,
    wp_send (by rw [spliceOpt_length (by exact hlen)]; dsimp only; omega), wp_dumpOut]
  · exact hQ last k hr
  · have e1 := spliceOpt_length (buf := s.out) hlen
    dsimp only
    rw [splice_length (by rw [header_length]; exact (by omega : _ ≤ s.out.length).trans_eq e1.symm)]
    exact (by omega : _ ≤ s.out.length).trans_eq e1.symm

/-- The handshake message in the `i`-th message of steps 7 and 9. -/
def hsMsg (input : Bytes) (i : ℕ) : Bytes := slice input (i * 159 + 111) 48

/-- After iteration `i` of step 7. -/
def after7 (clock : ℕ → UInt64) (rnd : Rnd) (input : Bytes) (dv : Noise.Device) (i : ℕ) (last : UInt64) (k : ℕ)
    (s : PRun) : PRun :=
  let r := respondNoise dv (hsMsg input i) (rnd.eresp i)
  { ctx := { received s.ctx i last k with
      dev := .live r.2.1
      ins := s.ctx.ins.set i r.2.2.1
      ticks := s.ctx.ticks + k + 1 }
    out := splice (spliceOpt s.out (i * 159 + 111) r.2.2.2) (i * 159)
      (header s.ctx (clock (s.ctx.ticks + k)) 159 5 (idx i)) }

theorem wp_step7Body {Q : Unit → PRun → Prop} {i : ℕ} {dv : Noise.Device} (hin : (i + 1) * 159 ≤ input.length)
    (hout : (i + 1) * 159 ≤ s.out.length) (hts : i < s.ctx.lastTs.length) (hpk : i < s.ctx.sigPks.length)
    (hins : i < s.ctx.ins.length) (hdev : s.ctx.dev = .live dv)
    (hE : ∀ r last k, recvMsg (clock s.ctx.ticks) input (i * 159) 159 4 (idx i) s.ctx.index s.ctx.sigPks[i] s.ctx.sid
      s.ctx.eps s.ctx.lastTs[i] = .ok (r, last, k) → r ≠ 0 → E (64 + r) { s with ctx := received s.ctx i last k })
    (hQ : ∀ last k, recvMsg (clock s.ctx.ticks) input (i * 159) 159 4 (idx i) s.ctx.index s.ctx.sigPks[i] s.ctx.sid
      s.ctx.eps s.ctx.lastTs[i] = .ok (0, last, k) → Q () (after7 clock rnd input dv i last k s)) :
    Wp (step7Body clock log rnd input i) U E Q s := by
  unfold step7Body
  dsimp only [hdrSize, msg4Size, msg5Size]
  rw [wp_bind, wp_dump (by omega), wp_bind, wp_sigPkOf (by exact hpk), wp_bind, wp_get, wp_bind]
  refine wp_recv (by omega) (by omega) hts fun r last k hr => ?_
  rw [wp_ite]
  refine ⟨fun h0 => hE r last k hr h0, fun h0 => ?_⟩
  have h0 : r = 0 := by simpa using h0
  subst h0
  have hlen : ∀ m, (respondNoise dv (hsMsg input i) (rnd.eresp i)).2.2.2 = some m →
      i * 159 + 111 + m.length ≤ s.out.length := fun m hm => by have := respondNoise_length hm; omega
  rw [wp_bind, wp_lift_ok (rd_slice' (by omega)), wp_bind]
  unfold respondSession
  rw [wp_bind, wp_getDev (dv := dv) (by exact hdev), wp_bind, wp_setCtx, wp_bind, wp_setIns (by exact hins),
    wp_copy (by exact hlen), wp_bind,
    wp_send (by rw [spliceOpt_length (by exact hlen)]; dsimp only; omega), wp_dumpOut]
  · exact hQ last k hr
  · have e1 := spliceOpt_length (buf := s.out) hlen
    dsimp only
    rw [splice_length (by rw [header_length]; exact (by omega : _ ≤ s.out.length).trans_eq e1.symm)]
    exact (by omega : _ ≤ s.out.length).trans_eq e1.symm

/-- After iteration `i` of step 9. -/
def after911 (slot : Ptr Noise.Session) (i : ℕ) (last : UInt64) (k : ℕ) (s : PRun) : PRun :=
  { s with ctx := { received s.ctx i last k with outs := s.ctx.outs.set i slot } }

theorem wp_step911Body {Q : Unit → PRun → Prop} {i : ℕ} {dv : Noise.Device} (hin : (i + 1) * 159 ≤ input.length)
    (hts : i < s.ctx.lastTs.length) (hpk : i < s.ctx.sigPks.length)
    (houts : i < s.ctx.outs.length) (hdev : s.ctx.dev = .live dv) {r' : Int} {slot : Ptr Noise.Session}
    (hf : finishNoise log dv s.ctx.outs[i] (hsMsg input i) = .ok (r', slot))
    (hE : ∀ r last k, recvMsg (clock s.ctx.ticks) input (i * 159) 159 5 (idx i) s.ctx.index s.ctx.sigPks[i] s.ctx.sid
      s.ctx.eps s.ctx.lastTs[i] = .ok (r, last, k) → r ≠ 0 → E (64 + r) { s with ctx := received s.ctx i last k })
    (hQ : ∀ last k, recvMsg (clock s.ctx.ticks) input (i * 159) 159 5 (idx i) s.ctx.index s.ctx.sigPks[i] s.ctx.sid
      s.ctx.eps s.ctx.lastTs[i] = .ok (0, last, k) → Q () (after911 slot i last k s)) :
    Wp (step911Body clock log input i) U E Q s := by
  unfold step911Body
  dsimp only [hdrSize, msg5Size]
  rw [wp_bind, wp_dump (by omega), wp_bind, wp_sigPkOf (by exact hpk), wp_bind, wp_get, wp_bind]
  refine wp_recv (by omega) (by omega) hts fun r last k hr => ?_
  rw [wp_ite]
  refine ⟨fun h0 => hE r last k hr h0, fun h0 => ?_⟩
  have h0 : r = 0 := by simpa using h0
  subst h0
  rw [wp_bind, wp_lift_ok (rd_slice' (by omega))]
  unfold finishSession
  rw [wp_bind, wp_getDev (dv := dv) (by exact hdev), wp_bind, wp_get, wp_bind, wp_lift_ok (ld_ok (by exact houts)), wp_bind,
    wp_lift_ok (a := (r', slot)) (by exact hf)]
  dsimp only
  rw [wp_setOuts (by exact houts)]
  exact hQ last k hr

theorem wp_encrypt {Q : Unit → PRun → Prop} {p : Bytes} {off l i : ℕ} {code r : Int} {slot : Ptr Noise.Session}
    {m : Option Bytes} (houts : i < s.ctx.outs.length) (h : encryptNoise s.ctx.outs[i] p l = .ok (r, slot, m))
    (hout : off + l ≤ s.out.length)
    (hE : r ≠ 0 → E code { s with ctx := { s.ctx with outs := s.ctx.outs.set i slot } })
    (hQ : r = 0 → Q () { s with
      ctx := { s.ctx with outs := s.ctx.outs.set i slot }
      out := spliceOpt s.out off m }) :
    Wp (encrypt p off l i code) U E Q s := by
  unfold encrypt
  rw [wp_bind, wp_get, wp_bind, wp_lift_ok (ld_ok houts), wp_bind, wp_lift_ok h]
  dsimp only
  rw [wp_bind, wp_setOuts houts, wp_ite]
  refine ⟨fun h0 => hE h0, fun h0 => ?_⟩
  rw [wp_copy (by
    intro x hx
    subst hx
    rw [encryptNoise_length h]
    exact hout)]
  exact hQ (by simpa using h0)

variable [Mac]

/-- The commitments of peer `i` in the broadcast of step 12. -/
def commits6 (t : UInt8) (input : Bytes) (i : ℕ) : List B32 :=
  toB32s t.toNat (slice input (111 + i * msg6Size t + 111) (32 * t.toNat))

/-- The message to peer `i` in step 13: empty handshake message, encrypted share, commitment to the key. -/
def put8 (out : Bytes) (i : ℕ) (m1 m2 : Bytes) (key : B32) : Bytes :=
  splice (splice (splice out (i * 256 + 111) m1) (i * 256 + 111 + 64) m2) (i * 256 + 111 + 64 + 49)
    (Mac.auth key m2).toList

/-- After iteration `i` of step 13. -/
def after13 (clock : ℕ → UInt64) (input : Bytes) (t : UInt8) (slot : Ptr Noise.Session) (m1 m2 : Bytes) (key : B32)
    (i : ℕ) (last : UInt64) (k : ℕ) (s : PRun) : PRun :=
  { ctx := { received s.ctx i last k with
      commitments := splice s.ctx.commitments (i * t.toNat) (commits6 t input i)
      outs := s.ctx.outs.set i slot
      ticks := s.ctx.ticks + k + 1 }
    out := splice (put8 s.out i m1 m2 key) (i * 256) (header s.ctx (clock (s.ctx.ticks + k)) 256 8 (idx i)) }

omit [Signing] [Hashes] [NoiseCrypto] in
theorem put8_length {out m1 m2 : Bytes} {i : ℕ} {key : B32} (h : (i + 1) * 256 ≤ out.length) (h1 : m1.length = 64)
    (h2 : m2.length = 49) : (put8 out i m1 m2 key).length = out.length := by
  have e1 : (splice out (i * 256 + 111) m1).length = out.length := splice_length (by omega)
  have e2 : (splice (splice out (i * 256 + 111) m1) (i * 256 + 111 + 64) m2).length = out.length := by
    rw [splice_length (by omega), e1]
  unfold put8
  rw [splice_length (by rw [e2]; simp; omega), e2]

theorem toB32s_length (k : ℕ) (b : Bytes) : (toB32s k b).length = k := by simp [toB32s]

/-- The state while iteration `i` of step 13 encrypts. -/
def mid13 (input : Bytes) (t : UInt8) (i : ℕ) (last : UInt64) (k : ℕ) (slot : Ptr Noise.Session) (s : PRun) : PRun :=
  { s with ctx := { received s.ctx i last k with
      commitments := splice s.ctx.commitments (i * t.toNat) (commits6 t input i)
      outs := s.ctx.outs.set i slot } }

theorem wp_step13Body {Q : Unit → PRun → Prop} {i : ℕ} {t : UInt8} (hin : 111 + (i + 1) * msg6Size t ≤ input.length)
    (hout : (i + 1) * 256 ≤ s.out.length) (hts : i < s.ctx.lastTs.length) (hpk : i < s.ctx.sigPks.length)
    (hsh : i < s.ctx.shares.length) (hcm : (i + 1) * t.toNat ≤ s.ctx.commitments.length)
    (houts : i < s.ctx.outs.length) {r1 : Int} {slot1 : Ptr Noise.Session} {o1 : Option Bytes}
    (h1 : encryptNoise s.ctx.outs[i] [] 64 = .ok (r1, slot1, o1))
    (hE : ∀ r last k, recvMsg (clock s.ctx.ticks) input (111 + i * msg6Size t) (msg6Size t) 6 (idx i) 0xff s.ctx.sigPks[i]
      s.ctx.sid s.ctx.eps s.ctx.lastTs[i] = .ok (r, last, k) → r ≠ 0 → E 64 { s with ctx := received s.ctx i last k })
    (hQ : ∀ last k, recvMsg (clock s.ctx.ticks) input (111 + i * msg6Size t) (msg6Size t) 6 (idx i) 0xff s.ctx.sigPks[i]
      s.ctx.sid s.ctx.eps s.ctx.lastTs[i] = .ok (0, last, k) →
      (r1 ≠ 0 → E 5 (mid13 input t i last k slot1 s)) ∧
      (r1 = 0 → ∃ m1 r2 slot2 o2, o1 = some m1 ∧
        encryptNoise slot1 (shareBytes s.ctx.shares[i]) 49 = .ok (r2, slot2, o2) ∧
        (r2 ≠ 0 → E 6 { mid13 input t i last k slot2 s with out := splice s.out (i * 256 + 111) m1 }) ∧
        (r2 = 0 → ∃ m2 key, o2 = some m2 ∧ keyAt slot2 = .ok key ∧
          Q () (after13 clock input t slot2 m1 m2 key i last k s)))) :
    Wp (step13Body clock log input t i) U E Q s := by
  have hs : msg6Size t = 111 + 32 * t.toNat := rfl
  have hm : (i + 1) * msg6Size t = i * msg6Size t + msg6Size t := by ring
  have hcm' : (i + 1) * t.toNat = i * t.toNat + t.toNat := by ring
  unfold step13Body
  dsimp only [hdrSize, msg8Size]
  rw [wp_bind, wp_dump (by omega), wp_bind, wp_sigPkOf (by exact hpk), wp_bind]
  refine wp_recv (by omega) (by omega) hts fun r last k hr => ?_
  rw [wp_ite]
  refine ⟨fun h0 => hE r last k hr h0, fun h0 => ?_⟩
  have h0 : r = 0 := by simpa using h0
  subst h0
  obtain ⟨q1, q2⟩ := hQ last k hr
  rw [wp_bind, wp_lift_ok (rd_slice' (by omega)), wp_bind, wp_setCommitments (by
    rw [toB32s_length]
    show _ ≤ s.ctx.commitments.length
    omega), wp_bind]
  refine wp_encrypt (s := _) (by exact houts) (by exact h1) (by dsimp only; omega) (fun h0 => q1 h0) fun h0 => ?_
  subst h0
  obtain ⟨m1, r2, slot2, o2, ho1, h2, q3, q4⟩ := q2 rfl
  subst ho1
  have l1 := encryptNoise_length h1
  have e1 : (splice s.out (i * 256 + 111) m1).length = s.out.length := splice_length (by omega)
  rw [wp_bind, wp_get, wp_bind, wp_lift_ok (ld_ok (by exact hsh)), wp_bind]
  refine wp_encrypt (s := _) (r := r2) (slot := slot2) (m := o2) (by simpa [received] using houts) ?_ ?_ ?_ ?_
  · simp only [received, List.getElem_set_self]
    exact h2
  · show _ ≤ (splice s.out (i * 256 + 111) m1).length
    omega
  · intro h0
    have := q3 h0
    simp only [mid13, received, List.set_set] at this ⊢
    exact this
  · intro h0
    subst h0
    obtain ⟨m2, key, ho2, hk, q5⟩ := q4 rfl
    subst ho2
    have l2 := encryptNoise_length h2
    have e2 : (splice (splice s.out (i * 256 + 111) m1) (i * 256 + 111 + 64) m2).length = s.out.length := by
      rw [splice_length (by omega), e1]
    have e3 : (put8 s.out i m1 m2 key).length = s.out.length := put8_length hout l1 l2
    have hbox : slice (splice (splice s.out (i * 256 + 111) m1) (i * 256 + 111 + 64) m2) (i * 256 + 111 + 64) 49 = m2 := by
      rw [← l2]; exact slice_splice_same (by omega)
    unfold commitKey
    rw [wp_bind, wp_bind, wp_get, wp_bind, wp_lift_ok (rd_slice' (by
      show _ ≤ (splice (splice s.out (i * 256 + 111) m1) (i * 256 + 111 + 64) m2).length
      omega)), wp_bind, wp_lift_ok (ld_ok (by simpa [received] using houts)), wp_bind, wp_lift_ok (a := key) (by
      simp only [received, List.set_set, List.getElem_set_self]
      exact hk)]
    simp only [spliceOpt, hbox]
    rw [wp_setOut (by
      rw [e2]; simp; omega), wp_bind, wp_send (by
      show _ ≤ (put8 s.out i m1 m2 key).length
      omega), wp_dumpOut (by
      show _ ≤ (splice (put8 s.out i m1 m2 key) _ _).length
      rw [splice_length (by rw [header_length]; omega)]
      omega)]
    simp only [received, List.set_set]
    exact q5

theorem wp_decrypt {Q : Bytes → PRun → Prop} {p : Bytes} {l i : ℕ} {code r : Int} {slot : Ptr Noise.Session}
    {m : Option Bytes} {dv : Noise.Device} (hins : i < s.ctx.ins.length) (hdev : s.ctx.dev = .live dv)
    (h : decryptNoise dv s.ctx.ins[i] p l = .ok (r, slot, m))
    (hE : r ≠ 0 → E code { s with ctx := { s.ctx with ins := s.ctx.ins.set i slot } })
    (hQ : r = 0 → Q (m.getD []) { s with ctx := { s.ctx with ins := s.ctx.ins.set i slot } }) :
    Wp (decrypt p l i code) U E Q s := by
  unfold decrypt
  rw [wp_bind, wp_getDev hdev, wp_bind, wp_get, wp_bind, wp_lift_ok (ld_ok hins), wp_bind, wp_lift_ok h]
  dsimp only
  rw [wp_bind, wp_setIns hins, wp_ite]
  exact ⟨fun h0 => hE h0, fun h0 => hQ (by simpa using h0)⟩

/-- The last handshake message in the `i`-th message of step 15. -/
def h3Msg (input : Bytes) (i : ℕ) : Bytes := slice input (i * 256 + 111) 64
/-- The encrypted share in it. -/
def boxMsg (input : Bytes) (i : ℕ) : Bytes := slice input (i * 256 + 111 + 64) 49
/-- The commitment to the key in it. -/
def macMsg (input : Bytes) (i : ℕ) : Bytes := slice input (i * 256 + 111 + 113) 32

/-- The share in a decrypted text. -/
def shareOf (plain : Bytes) : Share := ⟨plain.headD 0, toB32 plain.tail⟩

/-- The state while iteration `i` of step 15 decrypts. -/
def mid15 (i : ℕ) (last : UInt64) (k : ℕ) (slot : Ptr Noise.Session) (s : PRun) : PRun :=
  { s with ctx := { received s.ctx i last k with ins := s.ctx.ins.set i slot } }

/-- After iteration `i` of step 15. -/
def after15 (plain : Bytes) (i : ℕ) (last : UInt64) (k : ℕ) (slot : Ptr Noise.Session) (s : PRun) : PRun :=
  { s with ctx := { received s.ctx i last k with
      ins := s.ctx.ins.set i slot
      xshares := s.ctx.xshares.set i (shareOf plain) } }

theorem wp_step15Body {Q : Unit → PRun → Prop} {i : ℕ} {dv : Noise.Device} (hin : (i + 1) * 256 ≤ input.length)
    (hts : i < s.ctx.lastTs.length) (hpk : i < s.ctx.sigPks.length) (hx : i < s.ctx.xshares.length)
    (hins : i < s.ctx.ins.length) (hdev : s.ctx.dev = .live dv) {r1 : Int} {slot1 : Ptr Noise.Session} {o1 : Option Bytes}
    (h1 : decryptNoise dv s.ctx.ins[i] (h3Msg input i) 0 = .ok (r1, slot1, o1))
    (hE : ∀ r last k, recvMsg (clock s.ctx.ticks) input (i * 256) 256 8 (idx i) s.ctx.index s.ctx.sigPks[i] s.ctx.sid
      s.ctx.eps s.ctx.lastTs[i] = .ok (r, last, k) → r ≠ 0 → E (64 + r) { s with ctx := received s.ctx i last k })
    (hQ : ∀ last k, recvMsg (clock s.ctx.ticks) input (i * 256) 256 8 (idx i) s.ctx.index s.ctx.sigPks[i] s.ctx.sid
      s.ctx.eps s.ctx.lastTs[i] = .ok (0, last, k) →
      (r1 ≠ 0 → E 4 (mid15 i last k slot1 s)) ∧
      (r1 = 0 → ∃ key, keyAt slot1 = .ok key ∧
        ((Mac.auth key (boxMsg input i)).toList ≠ macMsg input i → E 5 (mid15 i last k slot1 s)) ∧
        ((Mac.auth key (boxMsg input i)).toList = macMsg input i → ∃ r2 slot2 o2,
          decryptNoise dv slot1 (boxMsg input i) 33 = .ok (r2, slot2, o2) ∧
          (r2 ≠ 0 → E 6 (mid15 i last k slot2 s)) ∧
          (r2 = 0 → Q () (after15 (o2.getD []) i last k slot2 s))))) :
    Wp (step15Body clock log input i) U E Q s := by
  unfold step15Body
  dsimp only [hdrSize, msg8Size]
  rw [wp_bind, wp_dump (by omega), wp_bind, wp_sigPkOf (by exact hpk), wp_bind, wp_get, wp_bind]
  refine wp_recv (by omega) (by omega) hts fun r last k hr => ?_
  rw [wp_ite]
  refine ⟨fun h0 => hE r last k hr h0, fun h0 => ?_⟩
  have h0 : r = 0 := by simpa using h0
  subst h0
  obtain ⟨q1, q2⟩ := hQ last k hr
  rw [wp_bind, wp_lift_ok (rd_slice' (by omega)), wp_bind]
  refine wp_decrypt (s := _) (by exact hins) (by exact hdev) (by exact h1) (fun h0 => q1 h0) fun h0 => ?_
  obtain ⟨key, hk, q3, q4⟩ := q2 h0
  rw [wp_bind, wp_lift_ok (rd_slice' (by omega)), wp_bind, wp_lift_ok (rd_slice' (by omega)), wp_bind, wp_get, wp_bind,
    wp_lift_ok (ld_ok (by simpa [received] using hins)), wp_bind, wp_lift_ok (a := key) (by
      simp only [received, List.getElem_set_self]
      exact hk), wp_ite]
  refine ⟨fun hm => q3 hm, fun hm => ?_⟩
  obtain ⟨r2, slot2, o2, h2, q5, q6⟩ := q4 (not_not.mp hm)
  rw [wp_bind]
  refine wp_decrypt (s := _) (slot := slot2) (r := r2) (m := o2) (dv := dv) (by simpa [received] using hins)
    (by exact hdev) ?_ ?_ ?_
  · simp only [received, List.getElem_set_self]
    exact h2
  · intro h0
    have := q5 h0
    simp only [mid15, received, List.set_set] at this ⊢
    exact this
  · intro h0
    rw [wp_setXshare (by exact hx)]
    have := q6 h0
    simp only [after15, received, List.set_set] at this ⊢
    exact this

end Bodies

end Peer

end Verif.TpDkg
