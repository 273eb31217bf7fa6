import Verif.Model.PrimHs
import Verif.Spec.Prim

/-!
# Buffers of a Noise message in memory

A message works on a number of buffers that do not overlap. What a function did to the memory is said buffer by buffer.
-/

namespace Verif.Spec.Prim

open Verif.Prim

/-- The buffers of a handshake or transport message. The message itself is in `head` and `body`; `payload` is its plaintext;
`peer i` is the static key of the `i`-th peer of the device; `frame` is the stack of the callees. -/
inductive Buf
  | cipher | ck | h | spriv | spub | epriv | epub | rs | re
  | payload | head | body | k1 | k2
  | peer (i : ℕ)
  | frame
  deriving DecidableEq

/-- Addresses and lengths of the buffers. -/
structure Layout where
  ptr : Buf → ℕ
  len : Buf → ℕ
  apart : ∀ a b, a ≠ b → Apart (ptr a) (len a) (ptr b) (len b)

/-- The byte belongs to the buffer. -/
def Layout.In (L : Layout) (b : Buf) (x : ℕ) : Prop := L.ptr b ≤ x ∧ x < L.ptr b + L.len b

/-- The pointers of the session. -/
def Layout.ptrs (L : Layout) : Ptrs :=
  ⟨L.ptr .cipher, L.ptr .ck, L.ptr .h, L.ptr .spriv, L.ptr .spub, L.ptr .epriv, L.ptr .epub, L.ptr .rs, L.ptr .re⟩

/-- The buffers of the session have their sizes. -/
structure Layout.Keys (L : Layout) : Prop where
  cipher : L.len .cipher = 32
  ck : L.len .ck = 64
  h : L.len .h = 64
  spriv : L.len .spriv = 32
  spub : L.len .spub = 32
  epriv : L.len .epriv = 32
  epub : L.len .epub = 32
  rs : L.len .rs = 32
  re : L.len .re = 32
  frame : L.len .frame = 385
  ck_ne : L.ptr .ck ≠ 0
  frame_ne : L.ptr .frame ≠ 0

/-- The memory holds this handshake state. -/
structure Shows (L : Layout) (m : Mem) (s : Noise.HS) : Prop where
  cipher : Holds m (L.ptr .cipher) s.cipherKey.toList
  ck : Holds m (L.ptr .ck) s.ck.toList
  h : Holds m (L.ptr .h) s.h.toList
  spriv : Holds m (L.ptr .spriv) s.spriv.toList
  spub : Holds m (L.ptr .spub) s.spub.toList
  epriv : Holds m (L.ptr .epriv) s.epriv.toList
  epub : Holds m (L.ptr .epub) s.epub.toList
  rs : Holds m (L.ptr .rs) s.rs.toList
  re : Holds m (L.ptr .re) s.re.toList

/-- Only bytes of the buffers in `W` have changed, and in the frame bytes have at most become zero. -/
def Confined (L : Layout) (W : Buf → Prop) (m m' : Mem) : Prop :=
  ∀ x, m' x ≠ m x → (∃ b, W b ∧ L.In b x) ∨ (L.In .frame x ∧ m' x = .val 0)

/-- Both descriptions of ChaCha20-Poly1305 are the same cipher: the 64-bit counter is the nonce of the Noise specification. -/
def SameCipher [NoiseCrypto] [Aead] : Prop :=
  (∀ (k : B32) n ad p, NoiseCrypto.aeadEnc k n ad p = Aead.enc k.toList (nonce n) ad p) ∧
    ∀ (k : B32) n ad c, NoiseCrypto.aeadDec k n ad c = Aead.dec k.toList (nonce n) ad c

/-- The state after a message in memory is this session state. -/
def StateIs (L : Layout) (m : Mem) (n : Next) : Noise.SState → Prop
  | .handshake s => n = .handshake (UInt32.ofNat s.step) ∧ Shows L m s
  | .transport t => ∃ a b, n = .transport a b ∧ Holds m (L.ptr .h) t.h.toList ∧ Holds m a t.sendKey.toList ∧
      Holds m b t.recvKey.toList ∧ t.sendNonce = 0 ∧ t.recvNonce = 0

/-- The buffers after a failed message are those of this session state. -/
def StuckIs (L : Layout) (m : Mem) : Noise.SState → Prop
  | .handshake s => s.step = 4 ∧ Shows L m s
  | .transport _ => False

end Verif.Spec.Prim
