import Verif.Proofs.TpCheck
import Verif.Props.PeerSafe
import Verif.Props.Defence -- not used, but both need several GB and must not be built at the same time

/-!
# Complete histories of a peer

With toy primitives, three peers and threshold 2. Dealer `j` has the polynomial `j + (j + 1) x`.
-/

namespace Verif.Props

open TpDkg Wire Spec.Wire

attribute [local instance] Ristretto.toy Toy.hashes Toy.signing Toy.noise Toy.mac

namespace Agree

def z (k : ℕ) : Bytes := List.replicate k 0

def rnd (i : UInt8) : Rnd :=
  { Toy.rnd with noiseSk := B32.ofNat (i.toNat - 1), coeff := fun k => B32.ofNat (i.toNat + k % 2) }

def keys (j : UInt8) : Bytes := Toy.msg 175 2 j 0xff (z 32 ++ (j - 1) :: z 31)

def handshake (no b i j : UInt8) : Bytes := Toy.msg 159 no j i (b :: z 47)

def com (j a b : UInt8) : Bytes := Toy.msg 175 6 j 0xff (a :: z 31 ++ b :: z 31)

/-- The share of dealer `j` for peer `i`, with the first and the last byte of the value. -/
def share (i j v top : UInt8) : Bytes :=
  Toy.msg 256 8 j i ((j - 1) :: z 63 ++ i :: v :: (z 30 ++ top :: z 16) ++ 1 :: z 31)

/-- The broadcast of the commitments. -/
def coms (a b c : Bytes) : Bytes := Toy.msg 636 7 0 0xff (a ++ b ++ c)

/-- The calls of peer `i`. -/
def calls (i : UInt8) (coms shares : Bytes) : List PCall :=
  [(Toy.msg 111 1 0 i [], 239), (Toy.msg 636 3 0 0xff (keys 1 ++ keys 2 ++ keys 3), 477),
   (handshake 4 9 i 1 ++ handshake 4 9 i 2 ++ handshake 4 9 i 3, 477),
   (handshake 5 11 i 1 ++ handshake 5 11 i 2 ++ handshake 5 11 i 3, 175), (coms, 768), (shares, 115),
   (complaintsMsg (complain 1 0 0 0 0) (complain 2 0 0 0 0) (complain 3 0 0 0 0), 0), ([], 143),
   (Toy.msg 113 21 0 0xff [79, 75], 113), ([], 0)].map fun a => ⟨false, true, zero32, rnd i, a.1, List.replicate a.2 0⟩

def hist (i : UInt8) (coms shares : Bytes) (final : PeerState) : History :=
  ⟨fun _ => 5, Toy.peer 0, calls i coms shares, final⟩

/-- The messages of peer `i` without a complaint and with the hash. -/
def m9 (i : UInt8) : Bytes := complain i 0 0 0 0

def m20 (i : UInt8) : Bytes := Toy.msg 143 20 i 0 (1 :: z 31)

def check (i : UInt8) (coms shares : Bytes) (xs : List Share) (v : ℕ) : Bool :=
  Toy.isOk (peerCalls (ZMod L) (fun _ => 5) (Toy.peer 0) (calls i coms shares)) (fun x => x.1.all (· == 0) &&
    x.2.step == 11 && x.2.index == i && decide (x.2.xshares = xs) && x.2.share.value.toNat == v) &&
  (callAt (ZMod L) (fun _ => 5) 4 (Toy.peer 0) (calls i coms shares)).any (fun x => x.1 == coms) &&
  (callAt (ZMod L) (fun _ => 5) 5 (Toy.peer 0) (calls i coms shares)).any (fun x => x.2 == m9 i) &&
  (callAt (ZMod L) (fun _ => 5) 8 (Toy.peer 0) (calls i coms shares)).any (fun x => x.2 == m20 i)

attribute [irreducible] calls m9 m20

theorem any_elim {α : Type} {o : Option α} {p : α → Bool} (h : o.any p = true) : ∃ a, o = some a ∧ p a = true := by
  cases o with
  | none => cases h
  | some a => exact ⟨a, rfl, h⟩

theorem check_elim {i : UInt8} {coms shares : Bytes} {xs : List Share} {v : ℕ} (h : check i coms shares xs v = true) :
    ∃ c, (hist i coms shares c).Finished (ZMod L) ∧ c.index = i ∧ c.xshares = xs ∧ c.share.value.toNat = v ∧
      (∃ o, callAt (ZMod L) (fun _ => 5) 4 (Toy.peer 0) (calls i coms shares) = some (coms, o)) ∧
      (∃ m, callAt (ZMod L) (fun _ => 5) 5 (Toy.peer 0) (calls i coms shares) = some (m, m9 i)) ∧
      ∃ m, callAt (ZMod L) (fun _ => 5) 8 (Toy.peer 0) (calls i coms shares) = some (m, m20 i) := by
  unfold check at h
  simp only [Bool.and_eq_true] at h
  obtain ⟨⟨⟨a1, a2⟩, a3⟩, a4⟩ := h
  obtain ⟨⟨rs, c⟩, e, h1⟩ := Toy.isOk_elim a1
  obtain ⟨⟨m, o⟩, e4, h2⟩ := any_elim a2
  obtain ⟨⟨m', o'⟩, e5, h3⟩ := any_elim a3
  obtain ⟨⟨m'', o''⟩, e8, h4⟩ := any_elim a4
  clear a1 a2 a3 a4
  simp only [Bool.and_eq_true, List.all_eq_true, beq_iff_eq, decide_eq_true_eq] at h1 h2 h3 h4
  obtain ⟨⟨⟨⟨h5, h6⟩, h7⟩, h8⟩, h9⟩ := h1
  subst h2 h3 h4
  exact ⟨c, ⟨Toy.peer_pwf 0, rfl, ⟨rs, e, h5⟩, .inr h6⟩, h7, h8, h9, ⟨o, e4⟩, ⟨m', e5⟩, ⟨m'', e8⟩⟩

def dealt (i : UInt8) : Bytes := share i 1 (1 + 2 * i) 0 ++ share i 2 (2 + 3 * i) 0 ++ share i 3 (3 + 4 * i) 0

def xs (i : ℕ) : List Share :=
  [⟨UInt8.ofNat i, B32.ofNat (1 + 2 * i)⟩, ⟨UInt8.ofNat i, B32.ofNat (2 + 3 * i)⟩, ⟨UInt8.ofNat i, B32.ofNat (3 + 4 * i)⟩]

/-- The commitments of the three dealers. -/
def right : Bytes := coms (com 1 1 2) (com 2 2 3) (com 3 3 4)

/-- Dealer 1 sends a malformed second commitment, and the first commitment of dealer 2 does not fit its shares. -/
def malformed : Bytes := coms (com 1 1 0) (com 2 9 3) (com 3 3 4)

/-- The first commitment of dealer 3 does not fit its shares. -/
def third : Bytes := coms (com 1 1 2) (com 2 2 3) (com 3 9 4)

theorem check_malformed : check 3 malformed (dealt 3) (xs 3) 33 = true := by decide +kernel

theorem check_third : check 3 third (dealt 3) (xs 3) 33 = true := by decide +kernel

theorem check_top : check 3 right (share 3 1 7 0 ++ share 3 2 11 128 ++ share 3 3 15 0)
    [⟨3, B32.ofNat 7⟩, ⟨3, B32.ofNat (11 + 2 ^ 255)⟩, ⟨3, B32.ofNat 15⟩] ((33 + 2 ^ 255) % L) = true := by decide +kernel

theorem check_first : check 1 right (dealt 1) (xs 1) 15 = true := by decide +kernel

theorem check_last : check 3 right (dealt 3) (xs 3) 33 = true := by decide +kernel

/-- The calls of the trusted party from the complaints on. -/
def tpCalls3 : List (Bytes × Bytes) :=
  [(m9 1 ++ m9 2 ++ m9 3, z 456), (m20 1 ++ m20 2 ++ m20 3, z 113)]

theorem tp_at6 : (tpCallAt (ZMod L) (fun _ => 5) true zero32 6 (Toy.tp3 6) tpCalls3).any
    (fun x => x.1 == m9 1 ++ m9 2 ++ m9 3) = true := by decide +kernel

theorem tp_at8 : (tpCallAt (ZMod L) (fun _ => 5) true zero32 8 (Toy.tp3 6) tpCalls3).any
    (fun x => x.1 == m20 1 ++ m20 2 ++ m20 3) = true := by decide +kernel

theorem tp_run : Toy.isOk (tpCalls (ZMod L) (fun _ => 5) true zero32 (Toy.tp3 6) tpCalls3)
    (fun x => x.1.all (· == 0) && x.2.step == 9) = true := by decide +kernel

end Agree

attribute [irreducible] Agree.right Agree.malformed Agree.third Agree.dealt Agree.share

end Verif.Props
