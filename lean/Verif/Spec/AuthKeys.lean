import Verif.Spec.Device

/-!
# What a file of authorised keys says

A line has the key in base64 (RFC 4648, with its padding), a blank and the name of the peer.
-/

namespace Verif.Spec.AuthKeys

open Spec.Device

/-- The alphabet of RFC 4648. -/
def alphabet : Bytes :=
  ((List.range 26).map (65 + ·) ++ (List.range 26).map (97 + ·) ++ (List.range 10).map (48 + ·) ++ [43, 47]).map UInt8.ofNat

/-- A key in base64 without padding: two zero bits are appended, and the 258 bits are cut into 43 digits. -/
def chars (key : B32) : Bytes := (List.range 43).map fun i => alphabet.getD (beNat key.toList * 4 / 64 ^ (42 - i) % 64) 0

/-- A peer: its key and its name. -/
abbrev Entry := B32 × Bytes

def line (e : Entry) : Bytes := chars e.1 ++ [61, 32] ++ e.2 ++ [10]

def file (es : List Entry) : Bytes := (es.map line).flatten

/-- A name that can stand in a line and in a string. -/
def Plain (name : Bytes) : Prop := 10 ∉ name ∧ 0 ∉ name

instance (name : Bytes) : Decidable (Plain name) := inferInstanceAs (Decidable (_ ∧ _))

/-- Registration of the peers one after the other. -/
def adds (es : List Entry) : List Op := es.map fun e => .add (some e.2) e.1

/-- A line (without its newline) that has no key of 44 characters, or a complete one that something follows. -/
def Complete (l : Bytes) : Prop := 32 ∈ l.take 44 ∨ l.length < 43 ∨ (∀ c ∈ l.take 43, c ∈ alphabet) ∧ 44 < l.length

instance (l : Bytes) : Decidable (Complete l) := inferInstanceAs (Decidable (_ ∨ _))

end Verif.Spec.AuthKeys
