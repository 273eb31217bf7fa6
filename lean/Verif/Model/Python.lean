import Verif.Model.Oprf
import Verif.Model.Toprf
import Verif.Model.Dkg
import Verif.Model.Tp
import Verif.Model.Peer

/-!
# Model of the argument checks of the Python wrapper `python/pyoprf/__init__.py`

A call of a wrapper function either raises before the C function is called or reaches the C function, which is then run with
the arguments that `ctypes` passes. No `argtypes` are declared: integers are passed as C integers of which a `uint8_t`
parameter sees the lowest 8 bits, and objects are passed as pointers according to their type. What the wrapper does with the
result is left out, as are failing allocations. Parameters annotated as `int` are integers.
-/

namespace Verif.Py

open TpDkg

/-- A Python object passed where `bytes` are expected. -/
inductive Val
  | bytes (b : Bytes)
  /-- an array made by `ctypes` -/
  | array (b : Bytes)
  | bytearray (b : Bytes)
  /-- a string, by its code points -/
  | str (cps : List UInt32)
  /-- anything else that `ctypes` cannot pass as pointer, with its length if it has one -/
  | other (len : Option ℕ)

/-- `len(v)`, or an exception. -/
def Val.len : Val → Option ℕ
  | bytes b => some b.length
  | array b => some b.length
  | bytearray b => some b.length
  | str s => some s.length
  | other n => n

/-- `isinstance(v, bytes)` -/
def Val.isBytes : Val → Bool
  | bytes _ => true
  | _ => false

/-- The four bytes of a `wchar_t`. -/
def wchar (c : UInt32) : Bytes := (beBytes 4 c.toNat).reverse

/-- The memory that `ctypes` passes, or an exception: `bytes` end with a zero byte, strings are passed as `wchar_t *`. -/
def Val.ptr : Val → Option Bytes
  | bytes b => some (b ++ [0])
  | array b => some b
  | bytearray _ => none
  | str s => some (s.flatMap wchar ++ [0, 0, 0, 0])
  | other _ => none

/-- An element of `b''.join(…)`. -/
def Val.piece : Val → Option Bytes
  | bytes b => some b
  | array b => some b
  | bytearray b => some b
  | str _ => none
  | other _ => none

/-- `b''.join(vs)` -/
def join (vs : List Val) : Option Bytes := (vs.mapM Val.piece).map List.flatten

/-- What a call of a wrapper function does. -/
inductive Res (α : Type)
  | raised
  | reached (c : C α)

/-- `raise` if the condition holds. -/
def raiseIf {α : Type} (p : Prop) [Decidable p] (k : Res α) : Res α := if p then .raised else k

/-- Continue with a value unless computing it raises. -/
def orRaise {α β : Type} (x : Option β) (k : β → Res α) : Res α :=
  match x with
  | none => .raised
  | some b => k b

/-- The `uint8_t` that C sees for an integer argument. -/
def u8 (z : ℤ) : UInt8 := UInt8.ofNat (z % 256).toNat

/-- `ctypes` refuses integers that do not fit in a `long`. -/
def Fits (z : ℤ) : Prop := -2 ^ 63 ≤ z ∧ z < 2 ^ 64

instance (z : ℤ) : Decidable (Fits z) := inferInstanceAs (Decidable (_ ∧ _))

/-- `len(v) != size` or `not isinstance(v, bytes)` -/
def notBytes (v : Val) (size : ℕ) : Prop := v.len ≠ some size ∨ v.isBytes = false

instance (v : Val) (size : ℕ) : Decidable (notBytes v size) := inferInstanceAs (Decidable (_ ∨ _))

/-! ## What the C functions read through their pointers -/

def b32At (buf : Bytes) (off : ℕ) : C B32 := do
  let b ← rd buf off 32
  .ok (toB32 b)

def shareAt (buf : Bytes) (i : ℕ) : C Share := do
  let ix ← ld buf (33 * i)
  let v ← b32At buf (33 * i + 1)
  .ok ⟨ix, v⟩

def mapC {α β : Type} (f : α → C β) : List α → C (List β)
  | [] => .ok []
  | a :: l => do
    let b ← f a
    let bs ← mapC f l
    .ok (b :: bs)

def sharesAt (buf : Bytes) (k : ℕ) : C (List Share) := mapC (shareAt buf) (List.range k)

/-- `k` rows of `t` points. -/
def rowsAt (buf : Bytes) (k t : ℕ) : C (List (List B32)) :=
  mapC (fun i => mapC (fun j => b32At buf (32 * (i * t + j))) (List.range t)) (List.range k)

/-- A share in a buffer made by `create_string_buffer`. -/
def zeroShare : Share := ⟨0, zero32⟩

variable [Hashes] (G : Type) [Ristretto G]

/-! ## The functions -/

/-- `blind`, __init__.py:81-85 -/
def blind (mlock : Bool) (scratch rnd : B32) (x : Val) : Res (Int × B32 × B32) :=
  orRaise x.len fun len => orRaise x.ptr fun p =>
    .reached (Oprf.blind G mlock scratch p (UInt8.ofNat len) rnd zero32 zero32)

/-- `evaluate`, __init__.py:102-112 -/
def evaluate (key blinded : Val) : Res (Int × B32) :=
  raiseIf (notBytes key 32) <| raiseIf (notBytes blinded 32) <|
    orRaise key.ptr fun k => orRaise blinded.ptr fun b =>
      .reached (do
        let k ← b32At k 0
        let b ← b32At b 0
        .ok (Oprf.evaluate G k b zero32))

/-- `unblind`, __init__.py:143-153 -/
def unblind (mlock : Bool) (r Z : Val) : Res (Int × B32) :=
  raiseIf (notBytes r 32) <| raiseIf (notBytes Z 32) <|
    orRaise r.ptr fun r => orRaise Z.ptr fun Z =>
      .reached (do
        let r ← b32At r 0
        let Z ← b32At Z 0
        .ok (Oprf.unblind G mlock r Z zero32))

omit [Ristretto G] in
/-- `finalize`, __init__.py:170-177 -/
def finalize (mlock : Bool) (x N : Val) : Res (Int × B64) :=
  raiseIf (notBytes N 32) <|
    orRaise x.len fun len => orRaise x.ptr fun x => orRaise N.ptr fun N =>
      .reached (do
        let N ← b32At N 0
        Oprf.finalize mlock x (UInt16.ofNat len) N (toB64 []))

/-- `coeff`, __init__.py:198-204; line 200 makes an exception but does not raise it. -/
def coeff (index : ℤ) (peers : Val) : Res B32 :=
  raiseIf (index < 1) <| orRaise peers.len fun len => raiseIf (¬ Fits index) <|
    orRaise peers.ptr fun p =>
      .reached (do
        let ps ← rd p 0 len
        .ok (Toprf.coeff (u8 index) ps))

/-- `create_shares`, __init__.py:224-235 -/
def createShares (rnd : ℕ → B32) (secret : Val) (n t : ℤ) : Res (List Share) :=
  raiseIf (notBytes secret 32) <| raiseIf (n < t) <| raiseIf (t < 2) <| raiseIf (¬ Fits n) <| raiseIf (¬ Fits t) <|
    orRaise secret.ptr fun p =>
      .reached (do
        let s ← b32At p 0
        Toprf.createShares s (u8 n) (u8 t) rnd (List.replicate n.toNat zeroShare))

/-- The checks of lines 257-261 and 332-336; the first lines 257 and 332 make an exception but do not raise it. -/
def badParts (responses : List Val) : Prop := ¬ ∀ r ∈ responses, r.isBytes = true ∧ r.len = some 33

instance (responses : List Val) : Decidable (badParts responses) := inferInstanceAs (Decidable (¬ _))

/-- `thresholdmult`, __init__.py:256-266 -/
def thresholdmult (junk : UInt8) (scratch : B32) (responses : List Val) : Res (Int × B32) :=
  raiseIf (badParts responses) <| orRaise (join responses) fun b =>
    .reached (do
      let rs ← sharesAt (b ++ [0]) responses.length
      Toprf.thresholdmult G junk scratch rs)

/-- `threshold_evaluate`, __init__.py:297-315 -/
def thresholdEvaluate (k blinded : Val) (self : ℤ) (indexes : List ℤ) : Res (Int × Share) :=
  raiseIf (notBytes k 33) <| raiseIf (notBytes blinded 32) <| raiseIf (self > 255 ∨ self < 1) <|
    raiseIf (¬ ∀ i ∈ indexes, i > 0 ∧ i < 256) <| orRaise k.ptr fun k => orRaise blinded.ptr fun b =>
      .reached (do
        let k ← shareAt k 0
        let b ← b32At b 0
        let ix ← rd (indexes.map u8 ++ [0]) 0 (UInt16.ofNat indexes.length).toNat
        .ok (Toprf.evaluate G k b (u8 self) ix zeroShare))

/-- `threshold_combine`, __init__.py:331-342 -/
def thresholdCombine (responses : List Val) : Res (Int × B32) :=
  raiseIf (badParts responses) <| orRaise (join responses) fun b =>
    .reached (do
      let rs ← sharesAt (b ++ [0]) responses.length
      Toprf.thresholdcombine G rs zero32)

/-- `_3hashtdh`, __init__.py:349-370 -/
def hash3tdh (mlock : Bool) (s1 s2 : B32) (k z alpha ssid : Val) : Res (Int × Share) :=
  raiseIf (notBytes k 33) <| raiseIf (notBytes z 33) <| raiseIf (notBytes alpha 32) <|
    raiseIf (ssid.isBytes = false) <| orRaise ssid.len fun len => raiseIf (len > 65535) <|
      orRaise k.ptr fun k => orRaise z.ptr fun z => orRaise alpha.ptr fun a => orRaise ssid.ptr fun s =>
        .reached (do
          let k ← shareAt k 0
          let z ← shareAt z 0
          let a ← b32At a 0
          Toprf.hash3tdh G mlock s1 s2 k z a s (UInt16.ofNat len) zeroShare)

/-- `dkg_start`, __init__.py:378-389 -/
def dkgStart (mlock : Bool) (rnd : ℕ → B32) (n t : ℤ) : Res (Int × List B32 × List Share) :=
  raiseIf (n < t) <| raiseIf (t < 2) <| raiseIf (¬ Fits n) <| raiseIf (¬ Fits t) <|
    .reached (Dkg.start G mlock (u8 n) (u8 t) rnd (List.replicate t.toNat zero32) (List.replicate n.toNat zeroShare))

/-- `dkg_verify_commitments`, __init__.py:398-419 -/
def dkgVerifyCommitments (scratch : B32) (n t self : ℤ) (commitments : Val) (shares : List Val) :
    Res (Int × List UInt8 × UInt8) :=
  raiseIf (n < t) <| raiseIf (t < 2) <| raiseIf (self < 1 ∨ self > n) <|
    orRaise commitments.len fun len => raiseIf ((len : ℤ) ≠ n * t * 32) <| orRaise (join shares) fun b =>
      raiseIf ((b.length : ℤ) ≠ n * 33) <| raiseIf (¬ Fits n) <| raiseIf (¬ Fits t) <| raiseIf (¬ Fits self) <|
        orRaise commitments.ptr fun c =>
          .reached (do
            let rows ← rowsAt c (u8 n).toNat (u8 t).toNat
            let ss ← sharesAt (b ++ [0]) (u8 n).toNat
            Dkg.verifyCommitments G scratch (u8 n) (u8 t) (u8 self) rows ss (List.replicate n.toNat 0))

omit [Hashes] [Ristretto G] in
/-- `dkg_finish`, __init__.py:425-437; `xi[0]=self` raises unless the value fits in a byte. -/
def dkgFinish (n : ℤ) (shares : List Val) (self : ℤ) : Res Share :=
  raiseIf (self < 1 ∨ self > n) <| orRaise (join shares) fun b => raiseIf ((b.length : ℤ) ≠ n * 33) <|
    raiseIf (self > 255) <| raiseIf (¬ Fits n) <|
      .reached (do
        let ss ← sharesAt (b ++ [0]) (u8 n).toNat
        Dkg.finish (u8 n) ss { zeroShare with index := u8 self })

/-- `dkg_reconstruct`, __init__.py:443-449 -/
def dkgReconstruct (responses : List Val) : Res B32 :=
  orRaise (join responses) fun b =>
    .reached (do
      let rs ← sharesAt (b ++ [0]) responses.length
      Dkg.reconstruct rs)

section
variable [Signing] [NoiseCrypto] [Mac]

/-- `tpdkg_peer_start`, __init__.py:645-659, up to the call of `tpdkg_start_peer`; `eps` has been converted. -/
def peerStart (ctx : PeerState) (now eps : UInt64) (log : Bool) (ltSk msg0 : Val) : Res (Int × PeerState) :=
  orRaise ltSk.ptr fun sk => orRaise msg0.ptr fun m =>
    .reached (do
      let sk ← rd sk 0 64
      startPeer ctx now eps log (toB64 sk) m)

/-- `tpdkg_start_tp`, __init__.py:541-579: the parameters passed to `tpdkg_start_tp` and the long-term keys passed to
`tpdkg_tp_set_bufs`, of which the trusted party reads one per peer. The other buffers are made by the wrapper. -/
def startTp (ctx : TP) (now eps : UInt64) (sid seed : B32) (n t : ℤ) (name : Val) (ltPks : List Val) :
    Res (Int × List B32) :=
  orRaise name.len fun len => raiseIf (¬ Fits n) <| raiseIf (¬ Fits t) <| orRaise name.ptr fun p =>
    .reached (do
      let nm ← rd p 0 len
      let (ret, ctx, _) ← TpDkg.startTp ctx now eps (u8 n) (u8 t) nm sid seed (List.replicate msg0Size 0)
      if ret ≠ 0 then .ok (ret, [])
      else
        match join ltPks with
        | none => .ok (ret, [])
        | some b => do
          let pks ← mapC (fun i => b32At (b ++ [0]) (32 * i)) (List.range ctx.n.toNat)
          .ok (ret, pks))

/-- `tpdkg_tp_next`, __init__.py:596-602. All sizes are less than 2^31, so they survive the conversion to `int`. -/
def tpNext (clock : ℕ → UInt64) (log : Bool) (scratch : B32) (ctx : TP) (msg : Val) : Res (Int × TP × Bytes) :=
  match tpInputSize ctx with
  | .ub u => .reached (.ub u)
  | .ok size => orRaise msg.len fun len => raiseIf (len ≠ size) <| orRaise msg.ptr fun p =>
      .reached (do
        let m ← rd p 0 size
        TpDkg.tpNext G clock log scratch ctx m (List.replicate (tpOutputSize ctx) 0))


/-- `tpdkg_peer_next`, __init__.py:695-701 -/
def peerNext (clock : ℕ → UInt64) (log mlock : Bool) (scratch : B32) (rnd : Rnd) (ctx : PeerState) (msg : Val) :
    Res (Int × PeerState × Bytes) :=
  orRaise msg.len fun len => raiseIf (len ≠ peerInputSize ctx) <| orRaise msg.ptr fun p =>
    .reached (do
      let m ← rd p 0 (peerInputSize ctx)
      TpDkg.peerNext G clock log mlock scratch rnd ctx m (List.replicate (peerOutputSize ctx) 0))

end

end Verif.Py
