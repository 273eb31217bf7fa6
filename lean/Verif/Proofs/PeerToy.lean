import Verif.Spec.Net
import Verif.Proofs.TpToy
import Verif.Proofs.PeerNext

/-!
# Small runs of a peer

With toy primitives, three peers and threshold 2. The runs show that the hypotheses of the theorems about peers can be
met.
-/

namespace Verif.Toy

open TpDkg Wire Spec.Wire

attribute [local instance] Ristretto.toy Toy.hashes Toy.signing Toy.noise Toy.mac

/-- Peer 1 before step `step`. -/
def peer (step : ℕ) : PeerState where
  step := step
  prev := step - 1
  sid := zero32
  n := 3
  t := 2
  index := 1
  ltSk := toB64 []
  sigPk := zero32
  sigSk := toB64 []
  noisePk := zero32
  noiseSk := zero32
  tpSigPk := zero32
  tpLastTs := 5
  lastTs := [5, 5, 5]
  eps := 10
  sigPks := [zero32, zero32, zero32]
  noisePks := [zero32, zero32, zero32]
  dev := .null
  outs := [.null, .null, .null]
  ins := [.null, .null, .null]
  commitments := List.replicate 6 zero32
  shares := List.replicate 3 ⟨0, zero32⟩
  xshares := [⟨1, B32.ofNat 10⟩, ⟨1, B32.ofNat 20⟩, ⟨1, B32.ofNat 30⟩]
  complaintsLen := 0
  complaints := List.replicate 9 0
  myLen := 0
  mine := [0, 0, 0]
  transcript := []
  share := ⟨0, zero32⟩
  ticks := 0

theorem peer_pwf (step : ℕ) : PWF (peer step) :=
  ⟨show 2 ≤ 2 by decide, show 2 < 3 by decide, show 3 ≤ 128 by decide, rfl, rfl, rfl, rfl, rfl, rfl, rfl, rfl, rfl, rfl⟩

/-- Fixed random values. -/
def rnd : Rnd := ⟨B32.ofNat 100, B32.ofNat 50, fun k => B32.ofNat (k + 7), fun k => B32.ofNat (k + 9),
  fun k => B32.ofNat (3 * k + 1)⟩

/-- A call with this input and a zero output buffer of `len` bytes. -/
def pcall (input : Bytes) (len : ℕ) : PCall := ⟨true, true, zero32, rnd, input, List.replicate len 0⟩

def isOk {α : Type} (x : C α) (p : α → Bool) : Bool := match x with | .ok a => p a | .ub _ => false

theorem isOk_elim {α : Type} {x : C α} {p : α → Bool} (h : isOk x p = true) : ∃ a, x = .ok a ∧ p a = true := by
  unfold isOk at h
  split at h
  · exact ⟨_, rfl, h⟩
  · cases h

/-- The calls of steps 8 to 10, in which the trusted party confirms. -/
def finalCalls : List PCall := [pcall [] 143, pcall (msg 113 21 0 0xff [79, 75]) 113, pcall [] 0]

theorem final : ∃ p, peerCalls (ZMod L) (fun _ => 5) (peer 8) finalCalls = .ok p ∧
    (p.1 == [0, 0, 0] && p.2.share.value.toNat == 60) = true :=
  isOk_elim (by decide +kernel)

end Verif.Toy
