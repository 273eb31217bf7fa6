import Verif.Spec.Peer

/-!
# Vocabulary for the memory safety of the peers
-/

namespace Verif.TpDkg

open Wire Spec.Wire

/-- A pointer of the peer refers to a session that has been freed. -/
def PeerState.Dangling (c : PeerState) : Prop := .freed ∈ c.outs ∨ .freed ∈ c.ins

/-- The number of complaints announced by peer `i + 1` in the broadcast of the complaints. -/
def countAt (n : ℕ) (input : Bytes) (i : ℕ) : ℕ := (input.getD (111 + i * (112 + n) + 111) 0).toNat

/-- The peers accused by peer `i + 1`. -/
def accused (n : ℕ) (input : Bytes) (i : ℕ) : List UInt8 := slice input (111 + i * (112 + n) + 112) (countAt n input i)

/-- No peer announces more complaints than there is room for in its message. -/
def CountsOk (n : ℕ) (input : Bytes) : Prop := ∀ i < n, countAt n input i ≤ n

variable [Signing] [Hashes] [NoiseCrypto] [Mac] (G : Type) [Ristretto G]

/-- The states before the calls. -/
def before (clock : ℕ → UInt64) : (c : PeerState) → (calls : List PCall) → List (PeerState × PCall)
  | _, [] => []
  | c, a :: calls => (c, a) :: match a.run G clock c with
    | .ok (_, c', _) => before clock c' calls
    | .ub _ => []

end Verif.TpDkg
