import Verif.Spec.SessionMem
import Verif.Proofs.Device

/-!
# Sessions on the heap agree with sessions as values
-/

set_option linter.unusedSectionVars false

namespace Verif.Noise.Mem

open Spec.Device Spec.SessionMem NoiseCrypto

theorem toB64_toList (v : B64) : toB64 v.toList = v := by
  ext i hi
  simp [toB64, hi]

/-! ### Triples -/

/-- From every heap with the blocks `L` the function returns, and the result and the blocks afterwards satisfy `Q`. -/
def Tri {α : Type} (h0 : Heap) (L : Blocks) (m : M α) (Q : α → Blocks → Prop) : Prop :=
  ∀ h, Sep h0 h L → ∃ a h' L', m h = .ok (a, h') ∧ Sep h0 h' L' ∧ Q a L'

section
variable {α β : Type} {h0 : Heap} {L L1 : Blocks} {Q : α → Blocks → Prop} {R : β → Blocks → Prop}

theorem Tri.bind {m : M α} {f : α → M β} (h1 : Tri h0 L m Q) (h2 : ∀ a L', Q a L' → Tri h0 L' (f a) R) :
    Tri h0 L (m >>= f) R := by
  intro h s
  obtain ⟨a, h', L', e, s', q⟩ := h1 h s
  obtain ⟨b, h'', L'', e', s'', r⟩ := h2 a L' q h' s'
  exact ⟨b, h'', L'', by rw [run_bind, e, C.ok_bind]; exact e', s'', r⟩

theorem Tri.pure {a : α} (q : Q a L) : Tri h0 L (pure a) Q := fun h s => ⟨a, h, L, rfl, s, q⟩

theorem Tri.mono {m : M α} {Q' : α → Blocks → Prop} (t : Tri h0 L m Q) (hq : ∀ a L', Q a L' → Q' a L') :
    Tri h0 L m Q' := by
  intro h s
  obtain ⟨a, h', L', e, s', q⟩ := t h s
  exact ⟨a, h', L', e, s', hq a L' q⟩

theorem Tri.perm {m : M α} (e : L = L1) (t : Tri h0 L1 m Q) : Tri h0 L m Q := e ▸ t

theorem Tri.tail {m : M α} (t : Tri h0 L (m >>= fun a => Pure.pure a) Q) : Tri h0 L m Q := by
  have : (m >>= fun a => Pure.pure a) = m := bind_pure m
  rwa [this] at t

theorem Tri.read {m : M α} {a : α} {f : α → M β} (hm : ∀ h, Sep h0 h L → m h = .ok (a, h)) (k : Tri h0 L (f a) R) :
    Tri h0 L (m >>= f) R := by
  intro h s
  obtain ⟨b, h', L', e, s', r⟩ := k h s
  exact ⟨b, h', L', by rw [run_bind, hm h s, C.ok_bind]; exact e, s', r⟩

theorem Tri.alloc (b : Block) {f : ℕ → M β} (k : ∀ a, a ≠ 0 → Tri h0 ({(a, b)} + L) (f a) R) :
    Tri h0 L (Mem.alloc b >>= f) R := by
  intro h s
  obtain ⟨h', e, s', _⟩ := s.alloc b
  obtain ⟨c, h'', L', e', s'', r⟩ := k h.next (s'.ne (b := b) (by simp)) h' s'
  exact ⟨c, h'', L', by rw [run_bind, e, C.ok_bind]; exact e', s'', r⟩

theorem Tri.store {a : ℕ} {b : Block} (b' : Block) {f : Unit → M β} (e : L = {(a, b)} + L1)
    (k : Tri h0 ({(a, b')} + L1) (f ()) R) : Tri h0 L (Mem.store a b' >>= f) R := by
  subst e
  intro h s
  obtain ⟨h', e, s', _⟩ := s.store b'
  obtain ⟨c, h'', L', e', s'', r⟩ := k h' s'
  exact ⟨c, h'', L', by rw [run_bind, e, C.ok_bind]; exact e', s'', r⟩

theorem Tri.free {a : ℕ} {b : Block} {f : Unit → M β} (e : L = {(a, b)} + L1) (k : Tri h0 L1 (f ()) R) :
    Tri h0 L (Mem.free a >>= f) R := by
  subst e
  intro h s
  obtain ⟨h', e, s', _⟩ := s.free
  obtain ⟨c, h'', L', e', s'', r⟩ := k h' s'
  exact ⟨c, h'', L', by rw [run_bind, e, C.ok_bind]; exact e', s'', r⟩

theorem Tri.freeStr {p : ℕ} {t : Bytes} (ho : StrOk p t) {f : Unit → M β} (e : L = strBlock p t + L1)
    (k : Tri h0 L1 (f ()) R) : Tri h0 L (freeSome p >>= f) R := by
  subst e
  intro h s
  obtain ⟨h', e, s', _⟩ := s.freeStr ho
  obtain ⟨c, h'', L', e', s'', r⟩ := k h' s'
  exact ⟨c, h'', L', by rw [run_bind, e, C.ok_bind]; exact e', s'', r⟩

theorem Tri.freeStr' {p : ℕ} {t : Bytes} (ho : StrOk p t) {f : Unit → M β} (e : L = strBlock p t + L1)
    (k : Tri h0 L1 (f ()) R) : Tri h0 L (Mem.free p >>= f) R := by
  subst e
  intro h s
  obtain ⟨h', e, s'⟩ := s.freeStr' ho
  obtain ⟨c, h'', L', e', s'', r⟩ := k h' s'
  exact ⟨c, h'', L', by rw [run_bind, e, C.ok_bind]; exact e', s'', r⟩

theorem Tri.copyStr {t : Bytes} (ht : 0 ∉ t) {f : ℕ → M β}
    (k : ∀ p, StrOk p t → Tri h0 (strBlock p t + L) (f p) R) : Tri h0 L (Mem.copyStr t >>= f) R := by
  intro h s
  obtain ⟨p, h', e, s', ho, _⟩ := s.copyStr ht
  obtain ⟨c, h'', L', e', s'', r⟩ := k p ho h' s'
  exact ⟨c, h'', L', by rw [run_bind, e, C.ok_bind]; exact e', s'', r⟩

end

/-! ### Buffers -/

section
variable {β : Type} {h0 h : Heap} {L L1 : Blocks} {R : β → Blocks → Prop}

theorem Sep.loadSession (s : Sep h0 h L) {a : ℕ} {x : SessionRec} (hm : (a, Block.session x) ∈ L) :
    Mem.loadSession a h = .ok (x, h) := by
  unfold Mem.loadSession; rw [run_bind, s.load hm]; rfl

theorem Sep.loadEncap (s : Sep h0 h L) {a n p : ℕ} {l : Level} (hm : (a, Block.encap l n p) ∈ L) :
    Mem.loadEncap a h = .ok ((l, n, p), h) := by
  unfold Mem.loadEncap; rw [run_bind, s.load hm]; rfl

theorem Sep.loadWord (s : Sep h0 h L) {a : ℕ} {n : UInt32} (hm : (a, Block.word n) ∈ L) :
    Mem.loadWord a h = .ok (n, h) := by
  unfold Mem.loadWord; rw [run_bind, s.load hm]; rfl

theorem Sep.loadAll (s : Sep h0 h L) {a n : ℕ} {b : Bytes} (hm : (a, Block.bytes b) ∈ L) (hn : n = b.length) :
    Mem.loadN a n h = .ok (b, h) := by
  unfold Mem.loadN
  rw [run_bind, s.loadBytes hm]
  simp [run_pure, hn]

theorem Sep.loadN64 (s : Sep h0 h L) {a : ℕ} {v : B64} (hm : (a, Block.bytes v.toList) ∈ L) :
    Mem.loadN a 64 h = .ok (v.toList, h) := s.loadAll hm (by simp)

/-- Block of a buffer, none for one of length 0. -/
theorem Sep.loadBuf (s : Sep h0 h L) {p n : ℕ} {b : Bytes} (hm : prlgBlock p b ≤ L) (hn : n = b.length) :
    Mem.loadBuf p n h = .ok (b, h) := by
  unfold Mem.loadBuf
  by_cases he : b = []
  · subst he; simp [hn, run_pure]
  · rw [if_neg (by simpa [hn] using he)]
    exact s.loadAll (Multiset.mem_of_le hm (by simp [prlgBlock, he])) hn

theorem Sep.copyOf (s : Sep h0 h L) {p q : ℕ} {t : Bytes} (hp : (p, Block.str q) ∈ L) (ho : StrOk q t)
    (hs : strBlock q t ≤ L) : Mem.copyOf p h = Mem.copyStr t h := by
  unfold Mem.copyOf
  rw [run_bind, s.loadStr hp, C.ok_bind, run_bind, s.storedStr ho hs, C.ok_bind]

theorem Tri.copyOf {p q : ℕ} {t : Bytes} (hp : (p, Block.str q) ∈ L) (ho : StrOk q t) (hs : strBlock q t ≤ L)
    {f : ℕ → M β} (k : ∀ a, StrOk a t → Tri h0 (strBlock a t + L) (f a) R) : Tri h0 L (Mem.copyOf p >>= f) R := by
  intro h s
  obtain ⟨c, h', L', e, s', r⟩ := Tri.copyStr (R := R) ho.2 k h s
  exact ⟨c, h', L', by rw [run_bind] at e ⊢; rw [s.copyOf hp ho hs]; exact e, s', r⟩

theorem Tri.writeAt {a off : ℕ} {old b : Bytes} {f : Unit → M β} (e : L = {(a, .bytes old)} + L1)
    (hl : off + b.length ≤ old.length)
    (k : Tri h0 ({(a, .bytes (old.take off ++ b ++ old.drop (off + b.length)))} + L1) (f ()) R) :
    Tri h0 L (Mem.writeAt a off b >>= f) R := by
  unfold Mem.writeAt
  by_cases hb : b = []
  · subst hb e
    simp only [List.append_nil, List.length_nil, add_zero, List.take_append_drop] at k
    simpa using k
  · rw [if_neg hb]
    simp only [bind_assoc]
    refine Tri.read (a := old) (fun h s => s.loadBytes (by simp [e])) ?_
    rw [if_pos hl]
    exact Tri.store _ e k

/-- Overwriting a whole block. -/
theorem Tri.write {a : ℕ} {old b : Bytes} {f : Unit → M β} (e : L = {(a, .bytes old)} + L1)
    (hl : b.length = old.length) (k : Tri h0 ({(a, .bytes b)} + L1) (f ()) R) :
    Tri h0 L (Mem.writeAt a 0 b >>= f) R := by
  refine Tri.writeAt e (by omega) ?_
  have : old.take 0 ++ b ++ old.drop (0 + b.length) = b := by simp [hl]
  rwa [this]

theorem Tri.writeBuf {a : ℕ} {old b : Bytes} {f : Unit → M β} (e : L = prlgBlock a old + L1)
    (hl : b.length = old.length) (k : Tri h0 (prlgBlock a b + L1) (f ()) R) :
    Tri h0 L (Mem.writeAt a 0 b >>= f) R := by
  by_cases ho : old = []
  · subst ho
    have hb : b = [] := List.length_eq_zero_iff.mp hl
    subst hb
    subst e
    unfold Mem.writeAt
    simpa using k
  · have hb : b ≠ [] := by rintro rfl; exact ho (List.length_eq_zero_iff.mp hl.symm)
    simp only [prlgBlock, ho, hb, if_false] at e k
    exact Tri.write e hl k

theorem Tri.freeBuf {p : ℕ} {b : Bytes} (hb : b = [] → p = 0) {f : Unit → M β} (e : L = prlgBlock p b + L1)
    (k : Tri h0 L1 (f ()) R) : Tri h0 L (freeSome p >>= f) R := by
  by_cases ho : b = []
  · subst e
    simp only [prlgBlock, ho, if_true, zero_add]
    simpa [freeSome, hb ho] using k
  · simp only [prlgBlock, ho, if_false] at e
    intro h s
    have hp : p ≠ 0 := s.ne (b := .bytes b) (by simp [e])
    rw [freeSome, if_pos hp]
    exact Tri.free e k h s

theorem Tri.freeBuf' {p : ℕ} {b : Bytes} (hb : b = [] → p = 0) {f : Unit → M β} (e : L = prlgBlock p b + L1)
    (k : Tri h0 L1 (f ()) R) : Tri h0 L (Mem.free p >>= f) R := by
  by_cases ho : b = []
  · subst e
    simp only [prlgBlock, ho, if_true, zero_add]
    intro h s
    obtain ⟨c, h', L', e, s', r⟩ := k h s
    refine ⟨c, h', L', ?_, s', r⟩
    rw [run_bind, hb ho]
    simpa [Mem.free] using e
  · simp only [prlgBlock, ho, if_false] at e
    exact Tri.free e k

/-- An output buffer that is only allocated if it is not empty. -/
theorem Tri.callocBuf {n : ℕ} {f : ℕ → M β}
    (k : ∀ a, (List.replicate n (0 : UInt8) = [] → a = 0) → Tri h0 (prlgBlock a (List.replicate n 0) + L) (f a) R) :
    Tri h0 L ((if n > 0 then calloc n else Pure.pure 0) >>= f) R := by
  by_cases hn : n > 0
  · rw [if_pos hn]
    have hne : List.replicate n (0 : UInt8) ≠ [] := by simp; omega
    refine Tri.alloc _ fun a _ => ?_
    have := k a (fun h => absurd h hne)
    simpa [prlgBlock, hne] using this
  · have : n = 0 := by omega
    subst this
    have := k 0 (fun _ => rfl)
    simpa [prlgBlock] using this

end

/-! ### Handshake state -/

def hsBlocks (p : HsPtr) (s : HS) : Blocks :=
  {(p.k, .bytes s.cipherKey.toList)} + {(p.ck, .bytes s.ck.toList)} + {(p.h, .bytes s.h.toList)} +
    {(p.spriv, .bytes s.spriv.toList)} + {(p.spub, .bytes s.spub.toList)} + {(p.epriv, .bytes s.epriv.toList)} +
    {(p.epub, .bytes s.epub.toList)} + {(p.rs, .bytes s.rs.toList)} + {(p.re, .bytes s.re.toList)}

def tsBlocks (q : TsPtr) (t : TS) : Blocks :=
  {(q.h, .bytes t.h.toList)} + {(q.sendKey, .bytes t.sendKey.toList)} + {(q.recvKey, .bytes t.recvKey.toList)}

section
variable [Hashes] [NoiseCrypto] {β : Type} {h0 : Heap} {L : Blocks} {R : β → Blocks → Prop} {p : HsPtr} {s : HS}

theorem Tri.mixHash {x : Bytes} {f : Unit → M β}
    (k : Tri h0 (hsBlocks p { s with h := mixHash s.h x } + L) (f ()) R) :
    Tri h0 (hsBlocks p s + L) (mixHashAt p.h x >>= f) R := by
  unfold mixHashAt
  simp only [bind_assoc]
  refine Tri.read (fun h x => x.loadN64 (v := s.h) (by simp [hsBlocks])) ?_
  rw [toB64_toList]
  refine Tri.write (old := s.h.toList) (L1 := {(p.k, .bytes s.cipherKey.toList)} + {(p.ck, .bytes s.ck.toList)} +
    {(p.spriv, .bytes s.spriv.toList)} + {(p.spub, .bytes s.spub.toList)} + {(p.epriv, .bytes s.epriv.toList)} +
    {(p.epub, .bytes s.epub.toList)} + {(p.rs, .bytes s.rs.toList)} + {(p.re, .bytes s.re.toList)} + L)
    (by simp only [hsBlocks]; abel) (by simp) ?_
  refine Tri.perm ?_ k
  simp only [hsBlocks]; abel

theorem Tri.setRe {v : B32} {f : Unit → M β}
    (k : Tri h0 (hsBlocks p { s with re := v } + L) (f ()) R) :
    Tri h0 (hsBlocks p s + L) (Mem.writeAt p.re 0 v.toList >>= f) R := by
  refine Tri.write (old := s.re.toList) (L1 := {(p.k, .bytes s.cipherKey.toList)} + {(p.ck, .bytes s.ck.toList)} +
    {(p.h, .bytes s.h.toList)} +
    {(p.spriv, .bytes s.spriv.toList)} + {(p.spub, .bytes s.spub.toList)} + {(p.epriv, .bytes s.epriv.toList)} +
    {(p.epub, .bytes s.epub.toList)} + {(p.rs, .bytes s.rs.toList)} + L)
    (by simp only [hsBlocks]; abel) (by simp) ?_
  refine Tri.perm ?_ k
  simp only [hsBlocks]; abel

theorem Tri.setRs {v : B32} {f : Unit → M β}
    (k : Tri h0 (hsBlocks p { s with rs := v } + L) (f ()) R) :
    Tri h0 (hsBlocks p s + L) (Mem.writeAt p.rs 0 v.toList >>= f) R := by
  refine Tri.write (old := s.rs.toList) (L1 := {(p.k, .bytes s.cipherKey.toList)} + {(p.ck, .bytes s.ck.toList)} +
    {(p.h, .bytes s.h.toList)} +
    {(p.spriv, .bytes s.spriv.toList)} + {(p.spub, .bytes s.spub.toList)} + {(p.epriv, .bytes s.epriv.toList)} +
    {(p.epub, .bytes s.epub.toList)} + {(p.re, .bytes s.re.toList)} + L)
    (by simp only [hsBlocks]; abel) (by simp) ?_
  refine Tri.perm ?_ k
  simp only [hsBlocks]; abel

theorem Tri.setH {v : B64} {f : Unit → M β}
    (k : Tri h0 (hsBlocks p { s with h := v } + L) (f ()) R) :
    Tri h0 (hsBlocks p s + L) (Mem.writeAt p.h 0 v.toList >>= f) R := by
  refine Tri.write (old := s.h.toList) (L1 := {(p.k, .bytes s.cipherKey.toList)} + {(p.ck, .bytes s.ck.toList)} +
    {(p.spriv, .bytes s.spriv.toList)} + {(p.spub, .bytes s.spub.toList)} + {(p.epriv, .bytes s.epriv.toList)} +
    {(p.epub, .bytes s.epub.toList)} + {(p.rs, .bytes s.rs.toList)} + {(p.re, .bytes s.re.toList)} + L)
    (by simp only [hsBlocks]; abel) (by simp) ?_
  refine Tri.perm ?_ k
  simp only [hsBlocks]; abel

theorem Tri.setCkK {v : B64} {w : B32} {f : Unit → M β}
    (k : Tri h0 (hsBlocks p { s with ck := v, cipherKey := w } + L) (f ()) R) :
    Tri h0 (hsBlocks p s + L) (Mem.writeAt p.ck 0 v.toList >>= fun _ => Mem.writeAt p.k 0 w.toList >>= f) R := by
  refine Tri.write (old := s.ck.toList) (L1 := {(p.k, .bytes s.cipherKey.toList)} +
    {(p.h, .bytes s.h.toList)} +
    {(p.spriv, .bytes s.spriv.toList)} + {(p.spub, .bytes s.spub.toList)} + {(p.epriv, .bytes s.epriv.toList)} +
    {(p.epub, .bytes s.epub.toList)} + {(p.rs, .bytes s.rs.toList)} + {(p.re, .bytes s.re.toList)} + L)
    (by simp only [hsBlocks]; abel) (by simp) ?_
  refine Tri.write (old := s.cipherKey.toList) (L1 := {(p.ck, .bytes v.toList)} +
    {(p.h, .bytes s.h.toList)} +
    {(p.spriv, .bytes s.spriv.toList)} + {(p.spub, .bytes s.spub.toList)} + {(p.epriv, .bytes s.epriv.toList)} +
    {(p.epub, .bytes s.epub.toList)} + {(p.rs, .bytes s.rs.toList)} + {(p.re, .bytes s.re.toList)} + L)
    (by abel) (by simp) ?_
  refine Tri.perm ?_ k
  simp only [hsBlocks]; abel

theorem Tri.mixDh {sec pub : ℕ} {sv pv : B32} (h1 : (sec, Block.bytes sv.toList) ∈ hsBlocks p s)
    (h2 : (pub, Block.bytes pv.toList) ∈ hsBlocks p s) {f : Bool → M β}
    (k0 : mixDh sv pv s.ck = none → Tri h0 (hsBlocks p s + L) (f false) R)
    (k1 : ∀ ck k, mixDh sv pv s.ck = some (ck, k) →
      Tri h0 (hsBlocks p { s with ck, cipherKey := k } + L) (f true) R) :
    Tri h0 (hsBlocks p s + L) (mixDhAt sec pub p.k p.ck >>= f) R := by
  unfold mixDhAt
  simp only [bind_assoc]
  refine Tri.read (fun h x => x.loadN (Multiset.mem_add.mpr (.inl h1))) ?_
  refine Tri.read (fun h x => x.loadN (Multiset.mem_add.mpr (.inl h2))) ?_
  refine Tri.read (fun h x => x.loadN64 (v := s.ck) (by simp [hsBlocks])) ?_
  rw [toB32_toList, toB32_toList, toB64_toList]
  cases hd : Noise.mixDh sv pv s.ck with
  | none => simpa using k0 hd
  | some r =>
    obtain ⟨ck, k⟩ := r
    simp only [bind_assoc, pure_bind]
    exact Tri.setCkK (k1 ck k hd)

theorem Tri.encrypt {msg old : Bytes} {out off : ℕ} {nonce : UInt64} (hl : off + (msg.length + 16) ≤ old.length)
    {f : Unit → M β}
    (k : let c := aeadEnc s.cipherKey nonce s.h.toList msg
      Tri h0 (hsBlocks p { s with h := Noise.mixHash s.h c } +
        ({(out, .bytes (old.take off ++ c ++ old.drop (off + c.length)))} + L)) (f ()) R) :
    Tri h0 (hsBlocks p s + ({(out, .bytes old)} + L)) (encryptAndHashAt msg out off p.k p.h nonce >>= f) R := by
  unfold encryptAndHashAt
  simp only [bind_assoc]
  refine Tri.read (fun h x => x.loadN (v := s.cipherKey) (by simp [hsBlocks])) ?_
  refine Tri.read (fun h x => x.loadN64 (v := s.h) (by simp [hsBlocks])) ?_
  rw [toB32_toList, toB64_toList]
  refine Tri.writeAt (old := old) (L1 := hsBlocks p s + L) (by abel) (by rw [enc_length]; exact hl) ?_
  refine Tri.perm (L1 := hsBlocks p s + ({(out, .bytes (old.take off ++ aeadEnc s.cipherKey nonce s.h.toList msg ++
    old.drop (off + (aeadEnc s.cipherKey nonce s.h.toList msg).length)))} + L)) (by abel) ?_
  exact Tri.setH k

theorem decryptAndHash_length {k : B32} {n : UInt64} {hh : B64} {c m : Bytes} {h' : B64}
    (hd : decryptAndHash k n hh c = some (m, h')) : c.length = m.length + 16 := by
  unfold decryptAndHash at hd
  split at hd
  · cases hd
  · rename_i q hq
    injection hd with hd
    injection hd with e1 e2
    subst e1
    exact dec_length _ _ _ _ _ hq

theorem Tri.decrypt {c old : Bytes} {out : ℕ} {nonce : UInt64} (hl : c.length = old.length + 16) {f : Bool → M β}
    (k0 : decryptAndHash s.cipherKey nonce s.h c = none → Tri h0 (hsBlocks p s + (prlgBlock out old + L)) (f false) R)
    (k1 : ∀ m h, decryptAndHash s.cipherKey nonce s.h c = some (m, h) → m.length = old.length →
      Tri h0 (hsBlocks p { s with h } + (prlgBlock out m + L)) (f true) R) :
    Tri h0 (hsBlocks p s + (prlgBlock out old + L)) (decryptAndHashAt out c p.k p.h nonce >>= f) R := by
  unfold decryptAndHashAt
  simp only [bind_assoc]
  refine Tri.read (fun h x => x.loadN (v := s.cipherKey) (by simp [hsBlocks])) ?_
  refine Tri.read (fun h x => x.loadN64 (v := s.h) (by simp [hsBlocks])) ?_
  rw [toB32_toList, toB64_toList]
  cases hd : decryptAndHash s.cipherKey nonce s.h c with
  | none => simpa using k0 hd
  | some r =>
    obtain ⟨m, h'⟩ := r
    have hm := decryptAndHash_length hd
    simp only [bind_assoc, pure_bind]
    refine Tri.writeBuf (old := old) (L1 := hsBlocks p s + L) (by abel) (by omega) ?_
    refine Tri.perm (L1 := hsBlocks p s + (prlgBlock out m + L)) (by abel) ?_
    exact Tri.setH (k1 m h' hd (by omega))

/-- Decryption of the static key into the state. -/
theorem Tri.decryptRs {c : Bytes} {nonce : UInt64} (hl : c.length = 48) {f : Bool → M β}
    (k0 : decryptAndHash s.cipherKey nonce s.h c = none → Tri h0 (hsBlocks p s + L) (f false) R)
    (k1 : ∀ m h, decryptAndHash s.cipherKey nonce s.h c = some (m, h) →
      Tri h0 (hsBlocks p { s with rs := toB32 m, h } + L) (f true) R) :
    Tri h0 (hsBlocks p s + L) (decryptAndHashAt p.rs c p.k p.h nonce >>= f) R := by
  unfold decryptAndHashAt
  simp only [bind_assoc]
  refine Tri.read (fun h x => x.loadN (v := s.cipherKey) (by simp [hsBlocks])) ?_
  refine Tri.read (fun h x => x.loadN64 (v := s.h) (by simp [hsBlocks])) ?_
  rw [toB32_toList, toB64_toList]
  cases hd : decryptAndHash s.cipherKey nonce s.h c with
  | none => simpa using k0 hd
  | some r =>
    obtain ⟨m, h'⟩ := r
    have hm := decryptAndHash_length hd
    simp only [bind_assoc, pure_bind]
    have hv : (toB32 m).toList = m := toB32_list (by omega)
    have : Tri h0 (hsBlocks p s + L) (Mem.writeAt p.rs 0 (toB32 m).toList >>= fun _ =>
      Mem.writeAt p.h 0 h'.toList >>= fun _ => f true) R := Tri.setRs (Tri.setH (k1 m h' hd))
    rwa [hv] at this

end

/-! ### Handshake messages -/

section
variable [Hashes] [NoiseCrypto] {β : Type} {h0 : Heap} {L : Blocks} {p : HsPtr} {s : HS}

theorem fill2 {old a b : Bytes} {n m : ℕ} (hn : n = a.length) (hm : m = b.length) (h : old.length = n + m) :
    (old.take 0 ++ a ++ old.drop (0 + a.length)).take n ++ b ++
      (old.take 0 ++ a ++ old.drop (0 + a.length)).drop (n + b.length) = a ++ b := by
  subst hn hm
  simp only [List.take_zero, List.nil_append, zero_add]
  rw [List.take_left', List.drop_eq_nil_of_le (by simp; omega)]
  · simp
  · rfl

theorem Tri.out {R : β → Blocks → Prop} {out off : ℕ} {old b : Bytes} {f : Unit → M β}
    (hl : off + b.length ≤ old.length)
    (k : Tri h0 (hsBlocks p s + ({(out, .bytes (old.take off ++ b ++ old.drop (off + b.length)))} + L)) (f ()) R) :
    Tri h0 (hsBlocks p s + ({(out, .bytes old)} + L)) (Mem.writeAt out off b >>= f) R := by
  refine Tri.writeAt (old := old) (L1 := hsBlocks p s + L) (by abel) hl ?_
  refine Tri.perm ?_ k
  abel

/-- The static keys of a state stay. -/
def Same (s s' : HS) : Prop := s'.spriv = s.spriv ∧ s'.spub = s.spub

/-- After a handshake message was written: the state agrees, and with success the output buffer has the message. -/
def WPost (p : HsPtr) (s : HS) (out outlen : ℕ) (L : Blocks) (r : HRes Bytes) (x : Except Err HsPtr) (L' : Blocks) : Prop :=
  Same s r.2 ∧ match r.1 with
    | .error e => x = .error e ∧ ∃ b, L' = hsBlocks p r.2 + ({(out, .bytes b)} + L)
    | .ok c => x = .ok { p with step := p.step + 1 } ∧ r.2.step = s.step + 1 ∧ c.length = outlen ∧
        L' = hsBlocks p r.2 + ({(out, .bytes c)} + L)

theorem payload_le {payload : ℕ} {msg : Bytes} (hp : prlgBlock payload msg ≤ L) (A B : Blocks) :
    prlgBlock payload msg ≤ A + (B + L) :=
  le_trans hp (le_trans (Multiset.le_add_left _ _) (Multiset.le_add_left _ _))

theorem initWrite0_tri {msg old : Bytes} {payload out outlen : ℕ} (hp : prlgBlock payload msg ≤ L)
    (ho : old.length = outlen) :
    Tri h0 (hsBlocks p s + ({(out, .bytes old)} + L)) (initWrite0At p msg.length payload outlen out)
      (WPost p s out outlen L (initWrite0 s msg outlen)) := by
  unfold initWrite0At initWrite0
  by_cases hc : msg.length ≤ 4294967215 ∧ outlen = 48 + msg.length
  · rw [if_neg (not_not.mpr hc), if_neg (not_not.mpr hc)]
    refine Tri.read (fun h x => x.loadN (v := s.epub) (by simp [hsBlocks])) ?_
    refine Tri.mixHash ?_
    refine Tri.read (fun h x => x.loadN (v := s.epub) (by simp [hsBlocks])) ?_
    refine Tri.out (by simp; omega) ?_
    refine Tri.mixDh (sv := s.epriv) (pv := s.rs) (by simp [hsBlocks]) (by simp [hsBlocks]) (fun hd => ?_) (fun ck k hd => ?_)
    · simp only at hd
      simp only [hd]
      exact Tri.pure ⟨⟨rfl, rfl⟩, rfl, _, rfl⟩
    · simp only at hd
      simp only [hd, if_true]
      refine Tri.read (fun h x => x.loadBuf (payload_le hp _ _) rfl) ?_
      refine Tri.encrypt (by simp; omega) ?_
      refine Tri.pure ⟨⟨rfl, rfl⟩, rfl, rfl, by simp [enc_length]; omega, ?_⟩
      rw [fill2 (n := 32) (m := msg.length + 16) (by simp) (by simp [enc_length]) (by omega)]
      rfl
  · rw [if_pos hc, if_pos hc]
    exact Tri.pure ⟨⟨rfl, rfl⟩, rfl, old, rfl⟩

theorem respWrite1_tri {msg old : Bytes} {payload out outlen : ℕ} (hp : prlgBlock payload msg ≤ L)
    (ho : old.length = outlen) :
    Tri h0 (hsBlocks p s + ({(out, .bytes old)} + L)) (respWrite1At p msg.length payload outlen out)
      (WPost p s out outlen L (respWrite1 s msg outlen)) := by
  unfold respWrite1At respWrite1
  by_cases hc : msg.length ≤ 4294967215 ∧ outlen = 48 + msg.length
  · rw [if_neg (not_not.mpr hc), if_neg (not_not.mpr hc)]
    refine Tri.read (fun h x => x.loadN (v := s.epub) (by simp [hsBlocks])) ?_
    refine Tri.mixHash ?_
    refine Tri.read (fun h x => x.loadN (v := s.epub) (by simp [hsBlocks])) ?_
    refine Tri.out (by simp; omega) ?_
    refine Tri.mixDh (sv := s.epriv) (pv := s.re) (by simp [hsBlocks]) (by simp [hsBlocks]) (fun hd => ?_) (fun ck k hd => ?_)
    · simp only at hd
      simp only [hd]
      exact Tri.pure ⟨⟨rfl, rfl⟩, rfl, _, rfl⟩
    · simp only at hd
      simp only [hd, if_true]
      refine Tri.read (fun h x => x.loadBuf (payload_le hp _ _) rfl) ?_
      refine Tri.encrypt (by simp; omega) ?_
      refine Tri.pure ⟨⟨rfl, rfl⟩, rfl, rfl, by simp [enc_length]; omega, ?_⟩
      rw [fill2 (n := 32) (m := msg.length + 16) (by simp) (by simp [enc_length]) (by omega)]
      rfl
  · rw [if_pos hc, if_pos hc]
    exact Tri.pure ⟨⟨rfl, rfl⟩, rfl, old, rfl⟩

theorem initWrite2_tri {msg old : Bytes} {payload out outlen : ℕ} (hp : prlgBlock payload msg ≤ L)
    (ho : old.length = outlen) :
    Tri h0 (hsBlocks p s + ({(out, .bytes old)} + L)) (initWrite2At p msg.length payload outlen out)
      (WPost p s out outlen L (initWrite2 s msg outlen)) := by
  unfold initWrite2At initWrite2
  by_cases hc : msg.length ≤ 4294967215 ∧ outlen = 64 + msg.length
  · rw [if_neg (not_not.mpr hc), if_neg (not_not.mpr hc)]
    refine Tri.read (fun h x => x.loadN (v := s.spub) (by simp [hsBlocks])) ?_
    refine Tri.encrypt (by simp; omega) ?_
    refine Tri.mixDh (sv := s.spriv) (pv := s.re) (by simp [hsBlocks]) (by simp [hsBlocks]) (fun hd => ?_) (fun ck k hd => ?_)
    · simp only at hd
      simp only [hd]
      exact Tri.pure ⟨⟨rfl, rfl⟩, rfl, _, rfl⟩
    · simp only at hd
      simp only [hd, if_true]
      refine Tri.read (fun h x => x.loadBuf (payload_le hp _ _) rfl) ?_
      refine Tri.encrypt (by simp [enc_length]; omega) ?_
      refine Tri.pure ⟨⟨rfl, rfl⟩, rfl, rfl, by simp [enc_length]; omega, ?_⟩
      rw [fill2 (n := 48) (m := msg.length + 16) (by simp [enc_length]) (by simp [enc_length]) (by omega)]
      rfl
  · rw [if_pos hc, if_pos hc]
    exact Tri.pure ⟨⟨rfl, rfl⟩, rfl, old, rfl⟩

/-- After a handshake message was read. -/
def RPost (p : HsPtr) (s : HS) (out n : ℕ) (L : Blocks) (r : HRes Bytes) (x : Except Err HsPtr) (L' : Blocks) : Prop :=
  Same s r.2 ∧ match r.1 with
    | .error e => x = .error e ∧ ∃ b : Bytes, b.length = n ∧ L' = hsBlocks p r.2 + (prlgBlock out b + L)
    | .ok m => x = .ok { p with step := p.step + 1 } ∧ r.2.step = s.step + 1 ∧ m.length = n ∧
        L' = hsBlocks p r.2 + (prlgBlock out m + L)

theorem initRead1_tri {input old : Bytes} {out plen : ℕ} (ho : old.length = plen) :
    Tri h0 (hsBlocks p s + (prlgBlock out old + L)) (initRead1At p plen out input)
      (RPost p s out plen L (initRead1 s input plen)) := by
  unfold initRead1At initRead1
  by_cases hc : plen ≤ 4294967215 ∧ input.length = 48 + plen
  · rw [if_neg (not_not.mpr hc), if_neg (not_not.mpr hc)]
    have hv : (toB32 (input.take 32)).toList = input.take 32 := toB32_list (by simp; omega)
    rw [← hv]
    refine Tri.mixHash ?_
    refine Tri.setRe ?_
    rw [toB32_toList]
    refine Tri.mixDh (sv := s.epriv) (pv := toB32 (input.take 32)) (by simp [hsBlocks]) (by simp [hsBlocks]) (fun hd => ?_)
      (fun ck k hd => ?_)
    · simp only at hd
      simp only [hd]
      exact Tri.pure ⟨⟨rfl, rfl⟩, rfl, old, ho, rfl⟩
    · simp only at hd
      simp only [hd, if_true]
      refine Tri.decrypt (by simp; omega) (fun hx => ?_) (fun m hh hx hm => ?_)
      · simp only at hx
        simp only [hx]
        exact Tri.pure ⟨⟨rfl, rfl⟩, rfl, old, ho, rfl⟩
      · simp only at hx
        simp only [hx, if_true]
        exact Tri.pure ⟨⟨rfl, rfl⟩, rfl, rfl, hm.trans ho, rfl⟩
  · rw [if_pos hc, if_pos hc]
    exact Tri.pure ⟨⟨rfl, rfl⟩, rfl, old, ho, rfl⟩

theorem respRead0_tri {input old : Bytes} {out plen : ℕ} (ho : old.length = plen) :
    Tri h0 (hsBlocks p s + (prlgBlock out old + L)) (respRead0At p plen out input)
      (RPost p s out plen L (respRead0 s input plen)) := by
  unfold respRead0At respRead0
  by_cases hc : plen ≤ 4294967215 ∧ input.length = 48 + plen
  · rw [if_neg (not_not.mpr hc), if_neg (not_not.mpr hc)]
    have hv : (toB32 (input.take 32)).toList = input.take 32 := toB32_list (by simp; omega)
    rw [← hv]
    refine Tri.mixHash ?_
    refine Tri.setRe ?_
    rw [toB32_toList]
    refine Tri.mixDh (sv := s.spriv) (pv := toB32 (input.take 32)) (by simp [hsBlocks]) (by simp [hsBlocks]) (fun hd => ?_)
      (fun ck k hd => ?_)
    · simp only at hd
      simp only [hd]
      exact Tri.pure ⟨⟨rfl, rfl⟩, rfl, old, ho, rfl⟩
    · simp only at hd
      simp only [hd, if_true]
      refine Tri.decrypt (by simp; omega) (fun hx => ?_) (fun m hh hx hm => ?_)
      · simp only at hx
        simp only [hx]
        exact Tri.pure ⟨⟨rfl, rfl⟩, rfl, old, ho, rfl⟩
      · simp only at hx
        simp only [hx, if_true]
        exact Tri.pure ⟨⟨rfl, rfl⟩, rfl, rfl, hm.trans ho, rfl⟩
  · rw [if_pos hc, if_pos hc]
    exact Tri.pure ⟨⟨rfl, rfl⟩, rfl, old, ho, rfl⟩

/-- The blocks of a device are among `L`. -/
structure DevIn (L : Blocks) (dvp : ℕ) (d : Dev) (r : DeviceRec) (istr : ℕ) (prlg pub : Bytes) (ns : List Node) : Prop where
  le : devBlocks dvp r istr d prlg pub (headOf ns) + cells ns + bodies ns ≤ L
  name : StrOk istr d.name
  nodes : NodesOk ns
  peers : d.peers = ns.map (·.e)
  ids : IdsOk d

theorem DevIn.mono {L' : Blocks} {dvp : ℕ} {d : Dev} {r : DeviceRec} {istr : ℕ} {prlg pub : Bytes} {ns : List Node}
    (i : DevIn L dvp d r istr prlg pub ns) (h : L ≤ L') : DevIn L' dvp d r istr prlg pub ns :=
  ⟨le_trans i.le h, i.name, i.nodes, i.peers, i.ids⟩

section
variable {dvp : ℕ} {d : Dev} {r : DeviceRec} {istr : ℕ} {prlg pub : Bytes} {ns : List Node}

theorem DevIn.dev (i : DevIn L dvp d r istr prlg pub ns) : devBlocks dvp r istr d prlg pub (headOf ns) ≤ L :=
  le_trans (le_trans (Multiset.le_add_right _ _) (Multiset.le_add_right _ _)) i.le

theorem DevIn.cells (i : DevIn L dvp d r istr prlg pub ns) : Mem.cells ns ≤ L :=
  le_trans (le_trans (Multiset.le_add_left _ _) (Multiset.le_add_right _ _)) i.le

theorem DevIn.bodies (i : DevIn L dvp d r istr prlg pub ns) : Mem.bodies ns ≤ L :=
  le_trans (Multiset.le_add_left _ _) i.le

/-- Name of the peer with a number. -/
def nameOf (d : Dev) (pid : UInt32) : Bytes := ((d.peers.find? fun e => e.id = pid).map (·.name)).getD []

theorem nameOf_mem (i : IdsOk d) {e : Entry} (he : e ∈ d.peers) : nameOf d e.id = e.name := by
  unfold nameOf
  rw [find?_nodup (·.id) i.nodup he]
  rfl

/-- After the third message was read: with success the peer's name and number are stored. -/
def PPost (p : HsPtr) (s : HS) (out n pinfo pidp : ℕ) (d : Dev) (L : Blocks) (r : HRes (Bytes × UInt32))
    (x : Except Err HsPtr) (L' : Blocks) : Prop :=
  Same s r.2 ∧ match r.1 with
    | .error e => x = .error e ∧ ∃ (b : Bytes) (q : ℕ) (t : Bytes) (w : UInt32), b.length = n ∧ StrOk q t ∧
        L' = hsBlocks p r.2 + (prlgBlock out b + ({(pinfo, .str q)} + ({(pidp, .word w)} + (strBlock q t + L))))
    | .ok (m, pid) => x = .ok { p with step := p.step + 1 } ∧ r.2.step = s.step + 1 ∧ m.length = n ∧ pid ≠ 0 ∧
        ∃ q, StrOk q (nameOf d pid) ∧
        L' = hsBlocks p r.2 + (prlgBlock out m + ({(pinfo, .str q)} + ({(pidp, .word pid)} + (strBlock q (nameOf d pid) + L))))

theorem respRead2_tri {input old : Bytes} {out plen pidp : ℕ} {sn : SessionRec} {w : UInt32}
    (i : DevIn L dvp d r istr prlg pub ns) (ho : old.length = plen) :
    Tri h0 (hsBlocks p s + (prlgBlock out old + ({(sn.pinfo, .str 0)} + ({(pidp, .word w)} + L))))
      (respRead2At sn r p pidp plen out input)
      (PPost p s out plen sn.pinfo pidp d L (respRead2 (d.peers.map fun e => ⟨e.id, e.key⟩) s input plen)) := by
  unfold respRead2At respRead2
  have hempty : StrOk 0 ([] : Bytes) := ⟨fun _ => rfl, by simp⟩
  have fin : ∀ (s' : HS) (e : Err) (w : UInt32), Same s s' →
      Tri h0 (hsBlocks p s' + (prlgBlock out old + ({(sn.pinfo, .str 0)} + ({(pidp, .word w)} + L))))
        (pure (.error e)) (PPost p s out plen sn.pinfo pidp d L (.error e, s')) := fun s' e w hs =>
    Tri.pure ⟨hs, rfl, old, 0, [], w, ho, hempty, by simp [strBlock]⟩
  by_cases hc : plen ≤ 4294967215 ∧ input.length = 64 + plen
  · rw [if_neg (not_not.mpr hc), if_neg (not_not.mpr hc)]
    refine Tri.decryptRs (by simp; omega) (fun hx => ?_) (fun m hh hx => ?_)
    · simp only [hx]
      exact fin _ _ _ ⟨rfl, rfl⟩
    · simp only [hx, if_true]
      have i' := i.mono (L' := hsBlocks p { s with rs := toB32 m, h := hh } + (prlgBlock out old + ({(sn.pinfo, .str 0)} +
        ({(pidp, .word w)} + L)))) (le_trans (Multiset.le_add_left _ _) (le_trans (Multiset.le_add_left _ _)
          (le_trans (Multiset.le_add_left _ _) (Multiset.le_add_left _ _))))
      refine Tri.read (fun h x => x.loadHead (p := headOf ns) (Multiset.mem_of_le i'.dev (by simp [devBlocks]))) ?_
      refine Tri.read (fun h x => x.loadN (v := toB32 m) (by simp [hsBlocks])) ?_
      refine Tri.read (fun h x => x.find_data (p := fun e => decide (e.key = toB32 m)) ns
        (fun n hn => x.sameStatic _ n (le_trans (Mem.body_le hn) i'.bodies)) i'.cells i'.bodies) ?_
      have hfind : ((d.peers.map fun e => (⟨e.id, e.key⟩ : Peer)).find? fun p => p.s == toB32 m) =
          (ns.find? fun n => decide (n.e.key = toB32 m)).map fun n => ⟨n.e.id, n.e.key⟩ := by
        rw [i.peers, List.map_map, List.find?_map]
        simp only [Function.comp_def, Bool.beq_eq_decide_eq]
      rw [hfind]
      cases hf : ns.find? fun n => decide (n.e.key = toB32 m) with
      | none =>
        simp only [Option.map_none, Option.getD_none, ne_eq, not_true_eq_false, if_false]
        refine Tri.store (b := .word w) _ (L1 := hsBlocks p { s with rs := toB32 m, h := hh } + (prlgBlock out old +
          ({(sn.pinfo, .str 0)} + L))) (by abel) ?_
        refine Tri.perm ?_ (fin { s with rs := toB32 m, h := hh } .rsRejected 0 ⟨rfl, rfl⟩)
        abel
      | some n =>
        have hn := List.mem_of_find?_eq_some hf
        have hb := le_trans (Mem.body_le hn) i'.bodies
        have hm := Multiset.mem_of_le hb (peer_mem_body n)
        simp only [Option.map_some, Option.getD_some]
        have hed : n.e ∈ d.peers := by rw [i.peers]; exact List.mem_map_of_mem hn
        have hpid : n.e.id ≠ 0 := fun h => by
          have := (i.ids.lt n.e hed).1
          rw [h] at this
          exact absurd this (by decide)
        intro h x
        rw [if_pos (x.ne hm)]
        revert h x
        refine Tri.read (fun h x => x.loadPeer hm) ?_
        refine Tri.copyOf (Multiset.mem_of_le hb (info_mem_body n)) (i.nodes n hn) (le_trans (str_le_body n) hb)
          (fun q hq => ?_)
        refine Tri.store (b := .str 0) _ (L1 := strBlock q n.e.name + (hsBlocks p { s with rs := toB32 m, h := hh } +
          (prlgBlock out old + ({(pidp, .word w)} + L)))) (by abel) ?_
        refine Tri.store (b := .word w) _ (L1 := {(sn.pinfo, .str q)} + (strBlock q n.e.name +
          (hsBlocks p { s with rs := toB32 m, h := hh } + (prlgBlock out old + L)))) (by abel) ?_
        refine Tri.perm (L1 := hsBlocks p { s with rs := toB32 m, h := hh } + (prlgBlock out old + ({(sn.pinfo, .str q)} +
          ({(pidp, .word n.e.id)} + (strBlock q n.e.name + L))))) (by abel) ?_
        refine Tri.mixDh (sv := s.epriv) (pv := toB32 m) (by simp [hsBlocks]) (by simp [hsBlocks]) (fun hd => ?_)
          (fun ck k hd => ?_)
        · simp only at hd
          simp only [hd]
          exact Tri.pure ⟨⟨rfl, rfl⟩, rfl, old, q, n.e.name, n.e.id, ho, hq, rfl⟩
        · simp only at hd
          simp only [hd, if_true]
          refine Tri.decrypt (by simp; omega) (fun hy => ?_) (fun m' hh' hy hm' => ?_)
          · simp only at hy
            simp only [hy]
            exact Tri.pure ⟨⟨rfl, rfl⟩, rfl, old, q, n.e.name, n.e.id, ho, hq, rfl⟩
          · simp only at hy
            simp only [hy, if_true]
            refine Tri.pure ⟨⟨rfl, rfl⟩, rfl, rfl, hm'.trans ho, hpid, q, ?_⟩
            rw [nameOf_mem i.ids hed]
            exact ⟨hq, rfl⟩
  · rw [if_pos hc, if_pos hc]
    exact fin _ _ _ ⟨rfl, rfl⟩

end

theorem splitAt_tri (role : Role) :
    Tri h0 (hsBlocks p s + L) (splitAt role p) (fun st L' => ∃ q, st = .transport q ∧
      q.sendNonce = (split role s).sendNonce ∧ q.recvNonce = (split role s).recvNonce ∧ q.heard = false ∧
      L' = {(p.spriv, .bytes s.spriv.toList)} + {(p.spub, .bytes s.spub.toList)} + tsBlocks q (split role s) + L) := by
  unfold splitAt
  refine Tri.alloc _ fun k1 _ => ?_
  refine Tri.alloc _ fun k2 _ => ?_
  refine Tri.read (fun h x => x.loadN64 (v := s.ck) (by simp [hsBlocks])) ?_
  rw [toB64_toList]
  refine Tri.write (a := k1) (old := List.replicate 32 0) (L1 := {(k2, .bytes (List.replicate 32 0))} + (hsBlocks p s + L))
    (by abel) (by simp) ?_
  refine Tri.write (a := k2) (old := List.replicate 32 0) (L1 := {(k1, .bytes (key32 (kdf s.ck []).1).toList)} + (hsBlocks p s + L))
    (by abel) (by simp) ?_
  refine Tri.perm (L1 := {(p.k, .bytes s.cipherKey.toList)} + ({(p.ck, .bytes s.ck.toList)} +
    ({(p.epriv, .bytes s.epriv.toList)} + ({(p.epub, .bytes s.epub.toList)} + ({(p.rs, .bytes s.rs.toList)} +
    ({(p.re, .bytes s.re.toList)} + ({(p.h, .bytes s.h.toList)} + {(p.spriv, .bytes s.spriv.toList)} +
    {(p.spub, .bytes s.spub.toList)} + {(k1, .bytes (key32 (kdf s.ck []).1).toList)} +
    {(k2, .bytes (key32 (kdf s.ck []).2).toList)} + L))))))) (by simp only [hsBlocks]; abel) ?_
  refine Tri.free rfl ?_
  refine Tri.free rfl ?_
  refine Tri.free rfl ?_
  refine Tri.free rfl ?_
  refine Tri.free rfl ?_
  refine Tri.free rfl ?_
  cases role with
  | initiator =>
    refine Tri.pure ⟨_, rfl, rfl, rfl, rfl, ?_⟩
    simp only [tsBlocks, split]; abel
  | responder =>
    refine Tri.pure ⟨_, rfl, rfl, rfl, rfl, ?_⟩
    simp only [tsBlocks, split]; abel

end

end Verif.Noise.Mem
