import Verif.Model.Tp
import Verif.Spec.Wire

/-!
# Vocabulary for the properties of the trusted party

The messages expected in each step, with sender, place, header fields and the report that belongs to them.
-/

set_option linter.unusedSectionVars false

namespace Verif.TpDkg

open Wire Spec.Wire

/-- A context set up by `tpdkg_start_tp` and `tpdkg_tp_set_bufs` with buffers of the documented sizes. -/
structure WF (c : TP) : Prop where
  n_pos : 2 ≤ c.n.toNat
  n_le : c.n.toNat ≤ 128
  t_lt : c.t.toNat < c.n.toNat
  lastTs : c.lastTs.length = c.n.toNat
  sigPks : c.sigPks.length = c.n.toNat
  ltPks : c.ltPks.length = c.n.toNat
  commitments : c.commitments.length = c.n.toNat * c.t.toNat
  encShares : c.encShares.length = c.n.toNat * c.n.toNat * 256
  complaints : c.complaints.length = c.n.toNat * c.n.toNat
  cheaters : c.cheaterMax ≤ c.cheaters.length
  cheaterLen : c.cheaterLen ≤ c.cheaterMax

/-- `len` bytes at `off`. -/
def slice {α : Type} (b : List α) (off len : ℕ) : List α := (b.drop off).take len

/-- The reports so far. -/
def TP.log (c : TP) : List Cheater := c.cheaters.take c.cheaterLen

/-- The log is full. -/
def Full (c : TP) : Prop := c.cheaterMax ≤ c.cheaterLen

variable [Signing] [Hashes]

/-- The signed header written by the TP. -/
def tpHeader (ctx : TP) (now : UInt64) (len : ℕ) (msgno rcp : UInt8) : Bytes :=
  encode (Signing.sign ctx.sigSk (Header.mk msgno (UInt32.ofNat len) 0 rcp now ctx.sid).encode)
    ⟨msgno, UInt32.ofNat len, 0, rcp, now, ctx.sid⟩ []

/-- A message expected in a step: sender (from 0), place, header fields, key of the sender and the report about it. -/
structure Exp where
  i : ℕ
  off : ℕ
  len : ℕ
  msgno : UInt8
  rcp : UInt8
  pk : B32
  rstep : Int
  base : Int
  other : UInt8

/-- The first `k` expected messages. -/
def exps (f : ℕ → Exp) (k : ℕ) : List Exp := (List.range k).map f

/-- The message `e` was checked with result `r`. -/
def Result (clock : ℕ → UInt64) (input : Bytes) (c0 : TP) (e : Exp) (r : Int) : Prop :=
  ∃ k last last' m, c0.ticks ≤ k ∧
    recvMsg (clock k) input e.off e.len e.msgno (idx e.i) e.rcp e.pk c0.sid c0.eps last = .ok (r, last', m)

/-- `recv_msg` returns `r` for this message if it is the first one from this sender in this step. -/
def Received (clock : ℕ → UInt64) (input : Bytes) (c0 : TP) (e : Exp) (r : Int) : Prop :=
  ∃ k last' m, c0.ticks ≤ k ∧
    recvMsg (clock k) input e.off e.len e.msgno (idx e.i) e.rcp e.pk c0.sid c0.eps (c0.lastTs.getD e.i 0) =
      .ok (r, last', m)

/-- `recv_msg` accepts this message if it is the first one from this sender in this step, at any time from now on. -/
def Acceptable (clock : ℕ → UInt64) (input : Bytes) (c0 : TP) (e : Exp) : Prop :=
  ∀ k, c0.ticks ≤ k → ∃ last' m,
    recvMsg (clock k) input e.off e.len e.msgno (idx e.i) e.rcp e.pk c0.sid c0.eps (c0.lastTs.getD e.i 0) =
      .ok (0, last', m)

theorem Received.result {clock : ℕ → UInt64} {input : Bytes} {c0 : TP} {e : Exp} {r : Int}
    (h : Received clock input c0 e r) : Result clock input c0 e r := by
  obtain ⟨k, l, m, h1, h2⟩ := h
  exact ⟨k, _, l, m, h1, h2⟩

theorem Acceptable.received {clock : ℕ → UInt64} {input : Bytes} {c0 : TP} {e : Exp} {r : Int}
    (h : Acceptable clock input c0 e) (hr : Received clock input c0 e r) : r = 0 := by
  obtain ⟨k, l, m, h1, h2⟩ := hr
  obtain ⟨l', m', h3⟩ := h k h1
  rw [h2] at h3
  simp only [C.ok.injEq, Prod.mk.injEq] at h3
  exact h3.1

/-- The message `e` was checked, and reported if it was rejected. -/
def Checked (clock : ℕ → UInt64) (input : Bytes) (c0 : TP) (e : Exp) (log : List Cheater) : Prop :=
  ∃ r, Result clock input c0 e r ∧ (r ≠ 0 → ∃ x, (⟨e.rstep, e.base + r, idx e.i, e.other, x⟩ : Cheater) ∈ log)

/-- The key of peer `i`. -/
def pkOf (c : TP) (i : ℕ) : B32 := c.sigPks.getD i zero32

/-- The message of peer `i` in step 4; it carries the key that it is verified with. -/
def exp4 (input : Bytes) (i : ℕ) : Exp :=
  ⟨i, i * 239, 175, 2, 0xff, toB32 (slice input (i * 239 + 111) 32), 4, 64, 0xff⟩

/-- The long-term signature of peer `i` over its message is valid. -/
def ltValid (c : TP) (input : Bytes) (i : ℕ) : Prop :=
  ∃ lt, c.ltPks[i]? = some lt ∧
    Signing.verify lt (slice input (i * 239) 175) (toB64 (slice input (i * 239 + 175) 64)) = true

/-- The `m`-th message of steps 6 and 8 in the order of the output: from peer `m % n` to peer `m / n`. -/
def exp68 (c : TP) (m : ℕ) : Exp :=
  let n := c.n.toNat
  ⟨m % n, (m % n * n + m / n) * 159, 159, UInt8.ofNat (2 + c.step), idx (m / n), pkOf c (m % n),
    6 + ((c.step : Int) - 1) * 2, 64, idx (m / n)⟩

/-- The message of peer `i` in step 12. -/
def exp12 (c : TP) (i : ℕ) : Exp := ⟨i, i * msg6Size c.t, msg6Size c.t, 6, 0xff, pkOf c i, 12, 64, 0xff⟩

/-- The commitments in the message of peer `i`. -/
def commitmentsOf (c : TP) (input : Bytes) (i : ℕ) : List B32 :=
  toB32s c.t.toNat (slice input (i * msg6Size c.t + 111) (32 * c.t.toNat))

/-- The `m`-th message of step 14 in the order of the output: from peer `m % n` to peer `m / n`. -/
def exp14 (c : TP) (m : ℕ) : Exp :=
  let n := c.n.toNat
  ⟨m % n, (m % n * n + m / n) * 256, 256, 8, idx (m / n), pkOf c (m % n), 14, 64, idx (m / n)⟩

/-- The recorded complaints. -/
def TP.known (c : TP) : List UInt16 := c.complaints.take c.complaintsLen.toNat

/-- The recorded complaints are pairs of indexes of peers, without duplicates. -/
structure Complaints (n : ℕ) (c : TP) : Prop where
  nodup : c.known.Nodup
  range : ∀ p ∈ c.known, ∃ i x : UInt8, (1 ≤ i.toNat ∧ i.toNat ≤ n) ∧ (1 ≤ x.toNat ∧ x.toNat ≤ n) ∧ p = pair i x
  len : c.complaintsLen.toNat ≤ n * n

/-- The number of complaints announced in the message of peer `i`. -/
def countOf (c : TP) (input : Bytes) (i : ℕ) : ℕ := (input.getD (i * msg9Size c.n + 111) 0).toNat

/-- The complaints in the message of peer `i`. -/
def complaintsOf (c : TP) (input : Bytes) (i : ℕ) : List UInt16 :=
  (slice input (i * msg9Size c.n + 112) (countOf c input i)).map (pair (idx i))

/-- The message of peer `i` in step 16. -/
def exp16 (c : TP) (i : ℕ) : Exp := ⟨i, i * msg9Size c.n, msg9Size c.n, 9, 0xff, pkOf c i, 16, 64, 0xff⟩

/-- Number of complaints about peer `i` (from 0). -/
def cnt (cs : List UInt16) (i : ℕ) : ℕ := cs.countP fun c => c.toNat % 256 = i + 1

/-- Length of the answer of peer `i`. -/
def size18 (cs : List UInt16) (i : ℕ) : ℕ := if 0 < cnt cs i then 111 + 33 * cnt cs i else 0

/-- Offset of the answer of peer `i`. -/
def off18 (cs : List UInt16) (i : ℕ) : ℕ := ((List.range i).map (size18 cs)).sum

/-- Offset of the stored message from peer `i` (from 0) to the peer with index `x`. -/
def m8Off (c : TP) (i : ℕ) (x : UInt8) : ℕ := (i * c.n.toNat + (x.toNat - 1)) * 256

/-- The encrypted share in it. -/
def boxOf (c : TP) (i : ℕ) (x : UInt8) : Bytes := slice c.encShares (m8Off c i x + 175) 49

/-- The commitment to the key in it. -/
def macOf (c : TP) (i : ℕ) (x : UInt8) : Bytes := slice c.encShares (m8Off c i x + 224) 32

/-- The commitments from those of peer `i` on. -/
def commitsOf (c : TP) (i : ℕ) : List B32 := c.commitments.drop (i * c.t.toNat)

/-- The complainer that key `k` of the answer of peer `i` is for. -/
def keyFor (input : Bytes) (cs : List UInt16) (i k : ℕ) : UInt8 := input.getD (off18 cs i + 111 + 33 * k) 0

/-- Key `k` of the answer of peer `i`. -/
def keyOf (input : Bytes) (cs : List UInt16) (i k : ℕ) : B32 := toB32 (slice input (off18 cs i + 111 + 33 * k + 1) 32)

/-- The complaints that the first `k` keys in the answer of peer `i` are for. -/
def answers (input : Bytes) (cs : List UInt16) (i k : ℕ) : List UInt16 :=
  (List.range k).map fun k => pair (keyFor input cs i k) (idx i)

/-- The message of the accused peer `i`. -/
def exp18 (c : TP) (i : ℕ) : Exp := ⟨i, off18 c.known i, 111 + 33 * cnt c.known i, 11, 0, pkOf c i, 18, 32, 0xfe⟩

/-- The message of peer `i` in step 20. -/
def exp20 (c : TP) (i : ℕ) : Exp := ⟨i, i * 143, 143, 20, 0, pkOf c i, 20, 1, 0⟩

/-- Peer `i` sent the hash of the trusted party's transcript. -/
def sameHash (c : TP) (input : Bytes) (i : ℕ) : Prop :=
  slice input (i * 143 + 111) 32 = (Hashes.generichash32 c.transcript).toList

/-- The message of peer `i` in step 20 is rejected. -/
def rejected20 (clock : ℕ → UInt64) (c : TP) (input : Bytes) (i : ℕ) : Prop :=
  ∃ j r last' k, c.ticks ≤ j ∧ r ≠ 0 ∧ recvMsg (clock j) input (i * 143) 143 20 (idx i) 0 (pkOf c i) c.sid c.eps
    (c.lastTs.getD i 0) = .ok (r, last', k)

/-- "OK" -/
def okText : Bytes := [79, 75]

/-- "NO" -/
def noText : Bytes := [78, 79]

/-- The message of peer `i` in step 22. -/
def exp22 (c : TP) (i : ℕ) : Exp := ⟨i, i * 113, 113, 22, 0, pkOf c i, 22, 64, 0⟩

/-- The messages that the trusted party checks in its current step, in this order. -/
def expected (c : TP) (input : Bytes) : List Exp :=
  let n := c.n.toNat
  match c.step with
  | 1 => exps (exp4 input) n
  | 2 => exps (exp68 c) (n * n)
  | 3 => exps (exp68 c) (n * n)
  | 4 => exps (exp12 c) n
  | 5 => exps (exp14 c) (n * n)
  | 6 => exps (exp16 c) n
  | 7 => (exps (exp18 c) n).filter fun e => 0 < cnt c.known e.i
  | 8 => exps (exp20 c) n
  | 9 => exps (exp22 c) n
  | _ => []

/-- `m` is a message with these header fields and a valid signature. -/
def Authentic (m : Bytes) (len : ℕ) (msgno frm rcp : UInt8) (pk sid : B32) : Prop :=
  ∃ sig h body, m = encode sig h body ∧ h.len.toNat = len ∧ h.msgno = msgno ∧ h.frm = frm ∧ h.rcp = rcp ∧ h.sid = sid ∧
    Signing.verify pk h.encode sig = true

end Verif.TpDkg
