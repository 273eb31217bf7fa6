import Verif.Model.Python

/-!
# The arguments that the wrapped C functions can handle

According to the headers `oprf.h`, `toprf.h`, `dkg.h`, `tp-dkg.h` and the comments in the wrapper: sizes of buffers, ranges of
integers. `n = 255` is excluded where the C function does not end (C21, C28).
-/

namespace Verif.Spec.Python

open Py TpDkg

/-- A `bytes` object of this length. -/
def BytesOf (v : Val) (len : ℕ) : Prop := ∃ b, v = .bytes b ∧ b.length = len

/-- Lengths are passed as `uint8_t`. -/
def BlindArgs (x : Val) : Prop := ∃ b, x = .bytes b ∧ b.length ≤ 255

/-- Lengths are passed as `uint16_t`. -/
def FinalizeArgs (x N : Val) : Prop := (∃ b, x = .bytes b ∧ b.length ≤ 65535) ∧ BytesOf N 32

def CoeffArgs (index : ℤ) (peers : Val) : Prop := (1 ≤ index ∧ index ≤ 255) ∧ ∃ b, peers = .bytes b ∧ 2 ≤ b.length

def CreateArgs (secret : Val) (n t : ℤ) : Prop := BytesOf secret 32 ∧ 2 ≤ t ∧ t ≤ n ∧ n ≤ 254

def CombineArgs (responses : List Val) : Prop := (∀ r ∈ responses, BytesOf r 33) ∧ 2 ≤ responses.length

def EvaluateArgs (k blinded : Val) (self : ℤ) (indexes : List ℤ) : Prop :=
  BytesOf k 33 ∧ BytesOf blinded 32 ∧ (1 ≤ self ∧ self ≤ 255) ∧ (∀ i ∈ indexes, 1 ≤ i ∧ i ≤ 255) ∧ indexes.length ≤ 65535

def TdhArgs (k z alpha ssid : Val) : Prop :=
  BytesOf k 33 ∧ BytesOf z 33 ∧ BytesOf alpha 32 ∧ ∃ b, ssid = .bytes b ∧ b.length ≤ 65535

def StartArgs (n t : ℤ) : Prop := 2 ≤ t ∧ t ≤ n ∧ n ≤ 254

def VerifyArgs (n t self : ℤ) (commitments : Val) (shares : List Val) : Prop :=
  StartArgs n t ∧ (1 ≤ self ∧ self ≤ n) ∧ (∃ b, commitments = .bytes b ∧ (b.length : ℤ) = n * t * 32) ∧
    ∃ b, join shares = some b ∧ (b.length : ℤ) = n * 33

def FinishArgs (n : ℤ) (shares : List Val) (self : ℤ) : Prop :=
  (1 ≤ self ∧ self ≤ n ∧ n ≤ 255) ∧ ∃ b, join shares = some b ∧ (b.length : ℤ) = n * 33

def ReconstructArgs (responses : List Val) : Prop := (∀ r ∈ responses, BytesOf r 33) ∧ responses ≠ []

def PeerStartArgs (ltSk msg0 : Val) : Prop := BytesOf ltSk 64 ∧ BytesOf msg0 177

def TpStartArgs (n t : ℤ) (name : Val) (ltPks : List Val) : Prop :=
  (2 ≤ t ∧ t < n ∧ n ≤ 128) ∧ (∃ b, name = .bytes b ∧ 1 ≤ b.length ∧ b.length ≤ 1024) ∧ (ltPks.length : ℤ) = n ∧
    ∀ k ∈ ltPks, BytesOf k 32

/-- The call gets to the C function. -/
def Reaches {α : Type} (r : Res α) : Prop := ∃ c, r = .reached c

/-- The call gets to the C function, which has defined behaviour. -/
def Handled {α : Type} (r : Res α) : Prop := ∃ c, r = .reached c ∧ c.Safe

end Verif.Spec.Python
