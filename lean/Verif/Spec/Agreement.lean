import Verif.Spec.Session
import Verif.Spec.Sharing

/-!
# Vocabulary for the agreement of the peers
-/

namespace Verif.TpDkg

open Wire Spec.Wire

/-- The commitments of peer `j + 1` in the broadcast of the commitments. -/
def commitmentsIn (t : ℕ) (input : Bytes) (j : ℕ) : List B32 :=
  (List.range t).map fun k => toB32 (slice input (111 + j * (111 + 32 * t) + 111 + 32 * k) 32)

/-- The number of complaints announced in a message of a peer. -/
def announcedIn (m : Bytes) : ℕ := (m.getD 111 0).toNat

variable [Signing] [Hashes] [NoiseCrypto] [Mac] (G : Type) [Ristretto G]

/-- Input and output of the first call that is made in step `k`. -/
def callAt (clock : ℕ → UInt64) (k : ℕ) : (c : PeerState) → (calls : List PCall) → Option (Bytes × Bytes)
  | _, [] => none
  | c, a :: calls => match a.run G clock c with
    | .ok (_, c', o) => if c.step = k then some (a.input, o) else callAt clock k c' calls
    | .ub _ => none

/-- Calls of a peer: its clock, the states before and after, and the calls. -/
structure History where
  clock : ℕ → UInt64
  start : PeerState
  calls : List PCall
  final : PeerState

/-- A peer that went through the whole protocol, beginning with the first message after the start, without an error. -/
structure History.Finished (h : History) : Prop where
  wf : PWF h.start
  first : h.start.step = 0
  run : ∃ rs, peerCalls G h.clock h.start h.calls = .ok (rs, h.final) ∧ ∀ r ∈ rs, r = 0
  done : h.final.step = 10 ∨ h.final.step = 11

/-- Input and output of the first call of the trusted party that is made in step `k`. -/
def tpCallAt (clock : ℕ → UInt64) (log : Bool) (scratch : B32) (k : ℕ) :
    (c : TP) → (calls : List (Bytes × Bytes)) → Option (Bytes × Bytes)
  | _, [] => none
  | c, (input, out) :: calls => match tpNext G clock log scratch c input out with
    | .ok (_, c', o) => if c.step = k then some (input, o) else tpCallAt clock log scratch k c' calls
    | .ub _ => none

end Verif.TpDkg
