import Verif.Spec.Verdict

/-!
# Grounds for the reports of the trusted party

What a peer must have done for the trusted party to write a report about its message.
-/

set_option linter.unusedSectionVars false

namespace Verif.TpDkg

open Wire Spec.Wire

variable [Signing] [Hashes]

/-- The timestamp of the message at `off`, in network byte order at offset 71. -/
def tsAt (input : Bytes) (off : ℕ) : UInt64 := htonll (u64 (slice input (off + 71) 8))

/-- The timestamps that the `m`-th message of a call may be compared with: the one stored for its sender before the call
or that of an earlier message of the same sender in this call. -/
def Previous (c : TP) (input : Bytes) (m i : ℕ) (last : UInt64) : Prop :=
  last = c.lastTs.getD i 0 ∨
    ∃ m' < m, ∃ e', (expected c input)[m']? = some e' ∧ e'.i = i ∧ last = tsAt input e'.off

/-- `recv_msg` returns `r` for the `m`-th message of the call. -/
def Got (clock : ℕ → UInt64) (c : TP) (input : Bytes) (m : ℕ) (e : Exp) (r : Int) : Prop :=
  (expected c input)[m]? = some e ∧ ∃ k last last' q, c.ticks ≤ k ∧ Previous c input m e.i last ∧
    recvMsg (clock k) input e.off e.len e.msgno (idx e.i) e.rcp e.pk c.sid c.eps last = .ok (r, last', q)

/-- The `k`-th complaint in the message of peer `i`. -/
def accusedBy (c : TP) (input : Bytes) (i k : ℕ) : UInt8 := input.getD (i * msg9Size c.n + 112 + k) 0

/-- The grounds for reports in all steps but the one in which complaints are judged. -/
inductive Ground (clock : ℕ → UInt64) (c : TP) (input : Bytes) : Cheater → Prop
  /-- The message was rejected. -/
  | rejected (m : ℕ) (e : Exp) (r x : Int) (h : Got clock c input m e r) (h0 : r ≠ 0) :
    Ground clock c input ⟨e.rstep, e.base + r, idx e.i, e.other, x⟩
  /-- A complaint about somebody who is not a peer. -/
  | noPeer (i k : ℕ) (x : Int) (h6 : c.step = 6) (hi : i < c.n.toNat) (hk : k < countOf c input i)
    (h : accusedBy c input i k = 0 ∨ c.n < accusedBy c input i k) :
    Ground clock c input ⟨16, 7, idx i, accusedBy c input i k, x⟩
  /-- A peer that complains twice about the same peer. -/
  | twice (i k k' : ℕ) (x : Int) (h6 : c.step = 6) (hi : i < c.n.toNat) (hk : k < countOf c input i) (hk' : k' < k)
    (h : accusedBy c input i k' = accusedBy c input i k) :
    Ground clock c input ⟨16, 8, idx i, accusedBy c input i k, x⟩
  /-- Too many complaints: there are at least `t²` different ones. -/
  | tooMany (ps : List (ℕ × UInt8)) (x : Int) (h6 : c.step = 6) (hd : ps.Nodup) (hl : c.t.toNat * c.t.toNat ≤ ps.length)
    (h : ∀ p ∈ ps, p.1 < c.n.toNat ∧ ∃ k < countOf c input p.1, accusedBy c input p.1 k = p.2) :
    Ground clock c input ⟨16, 6, 0xfe, 0xfe, x⟩
  /-- Another transcript. -/
  | otherHash (i : ℕ) (x : Int) (h8 : c.step = 8) (hi : i < c.n.toNat) (h : ¬ sameHash c input i) :
    Ground clock c input ⟨20, 1, idx i, 0, x⟩

/-- Whatever the clock says, the messages of peer `i` in this call are accepted, no matter with which of the possible
earlier timestamps they are compared. -/
def FineMessages (clock : ℕ → UInt64) (c : TP) (input : Bytes) (i : ℕ) : Prop :=
  ∀ m e, (expected c input)[m]? = some e → e.i = i → ∀ k, c.ticks ≤ k → ∀ last, Previous c input m i last →
    ∃ last' q, recvMsg (clock k) input e.off e.len e.msgno (idx e.i) e.rcp e.pk c.sid c.eps last = .ok (0, last', q)

/-- The complaints of peer `i` are about peers and about each at most once. -/
def FineComplaints (c : TP) (input : Bytes) (i : ℕ) : Prop :=
  ∀ k < countOf c input i, (1 ≤ (accusedBy c input i k).toNat ∧ (accusedBy c input i k).toNat ≤ c.n.toNat) ∧
    ∀ k' < k, accusedBy c input i k' ≠ accusedBy c input i k

/-- A message of the call is authentic, and its timestamp fits those that it may be compared with. -/
def Timely (c : TP) (input : Bytes) (m : ℕ) (e : Exp) : Prop :=
  e.off + e.len ≤ input.length ∧ Authentic (slice input e.off e.len) e.len e.msgno (idx e.i) e.rcp e.pk c.sid ∧
  ∀ last, Previous c input m e.i last → 0 < last.toNat ∧ last.toNat + c.eps.toNat < 2 ^ 64 ∧
    last.toNat ≤ (tsAt input e.off).toNat ∧ (tsAt input e.off).toNat ≤ last.toNat + c.eps.toNat

variable [NoiseCrypto] [Mac] (G : Type) [Ristretto G]

/-- Peer `i` reveals keys for the complaints about it, each once, with which the shares that it sent are right. -/
def FineAnswers (c : TP) (input : Bytes) (i : ℕ) : Prop :=
  (∀ k < cnt c.known i, let x := keyFor input c.known i k
    pair x (idx i) ∈ c.known ∧ x ≠ idx i ∧ Stored c i x ∧ ShareRight G c i x (keyOf input c.known i k)) ∧
  ∀ k < cnt c.known i, ∀ k' < cnt c.known i, keyFor input c.known i k = keyFor input c.known i k' → k = k'

/-- Peer `i` has not complained about shares that are right under the revealed keys. -/
def FineAccusations (c : TP) (input : Bytes) (i : ℕ) : Prop :=
  ∀ j < c.n.toNat, j ≠ i → ∀ k < cnt c.known j, keyFor input c.known j k = idx i → pair (idx i) (idx j) ∈ c.known →
    ¬ ShareRight G c j (idx i) (keyOf input c.known j k)

/-- In this call there is nothing wrong with what peer `i` sent. -/
structure Fine (clock : ℕ → UInt64) (c : TP) (input : Bytes) (i : ℕ) : Prop where
  messages : FineMessages clock c input i
  complaints : c.step = 6 → FineComplaints c input i
  answers : c.step = 7 → FineAnswers G c input i
  accusations : c.step = 7 → FineAccusations G c input i
  hash : c.step = 8 → sameHash c input i

/-- The accused `j` has not revealed a key for the complaint of peer `i`. -/
def Silent (clock : ℕ → UInt64) (c : TP) (input : Bytes) (i j : ℕ) : Prop :=
  (∃ r ≠ 0, Received clock input c (exp18 c j) r) ∨ ∀ k < cnt c.known j, keyFor input c.known j k ≠ idx i

/-- Calls of the trusted party in which there is nothing wrong with what peer `i` sends. -/
def FineRun (clock : ℕ → UInt64) (log : Bool) (scratch : B32) (i : ℕ) : (c : TP) → (calls : List (Bytes × Bytes)) → Prop
  | _, [] => True
  | c, (input, out) :: calls => Fine G clock c input i ∧
    ∀ r c' o, tpNext G clock log scratch c input out = .ok (r, c', o) → FineRun clock log scratch i c' calls

/-- The state after calls of the trusted party, whatever they return. -/
def tpAfter (clock : ℕ → UInt64) (log : Bool) (scratch : B32) : (c : TP) → (calls : List (Bytes × Bytes)) → C TP
  | c, [] => .ok c
  | c, (input, out) :: calls => do
    let (_, c', _) ← tpNext G clock log scratch c input out
    tpAfter clock log scratch c' calls

end Verif.TpDkg
