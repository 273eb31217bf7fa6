import Verif.Proofs.HeapKeeps
import Verif.Spec.PeerNoise

/-!
# The Noise helpers of the key generation on the heap
-/

set_option linter.unusedSectionVars false

namespace Verif.Noise.Mem

open TpDkg NoiseCrypto Spec.Device Spec.SessionMem Spec.PeerNoise

section
variable [Hashes] [NoiseCrypto] {h0 : Heap} {L : Blocks} {dvp : ℕ} {spriv : B32}

/-! ### Steps of the helpers -/

theorem Tri.drop {β : Type} {R : β → Blocks → Prop} {L1 L0 : Blocks} {m : M Unit} {f : Unit → M β} (e : L0 = L1 + L)
    (d : Drop h0 L1 L m) (k : Tri h0 L (f ()) R) : Tri h0 L0 (m >>= f) R := by
  subst e
  intro h s
  obtain ⟨h1, e1, s1, -⟩ := d h s
  obtain ⟨b, h2, L2, e2, s2, q⟩ := k h1 s1
  exact ⟨b, h2, L2, by rw [run_bind, e1, C.ok_bind, e2], s2, q⟩

/-- Pack, write and release the encapsulation. -/
def sendHead (a conf : ℕ) (msg : Bytes) : M (RCode × ℕ × ℕ) := do
  let em ← packMsg conf msg
  let r ← sessionWriteAt em a
  encapFree em
  pure r

theorem sendHead_tri {z : SnPtr × Sn} (ok : SnOk dvp spriv z) (conf : ℕ) (msg : Bytes) :
    Tri h0 (snB z + L) (sendHead z.1.a conf msg) (fun x L' => ∃ z', SnOk dvp spriv z' ∧ z'.1.a = z.1.a ∧
      z'.2.s = (sessionWrite (pack conf msg) z.2.s).2.2 ∧ x.1 = (sessionWrite (pack conf msg) z.2.s).1 ∧
      (((sessionWrite (pack conf msg) z.2.s).1.isSuccess = true ∧ ∃ b, (sessionWrite (pack conf msg) z.2.s).2.1 = some b ∧
          x.2.1 = b.length ∧ L' = {(x.2.2, .bytes b)} + (snB z' + L)) ∨
        ((sessionWrite (pack conf msg) z.2.s).1.isSuccess = false ∧ (sessionWrite (pack conf msg) z.2.s).2.1 = none ∧
          L' = snB z' + L))) := by
  unfold sendHead
  refine packMsg_tri fun emp mp hm => ?_
  have hok := ok
  refine Tri.perm (L1 := core z.1.a z.1.r z.1.spriv z.1.spub z.2.s.st + ({(emp, .encap (.conf conf) msg.length mp)} +
    (prlgBlock mp msg + ({(z.1.r.pinfo, .str z.1.pstr)} + (strBlock z.1.pstr z.1.pname +
      ({(z.1.r.info, .str z.1.istr)} + strBlock z.1.istr z.2.name)) + L)))) (by simp only [snB]; abel) ?_
  refine Tri.bind (sessionWriteAt_tri (conf := conf) (msg := msg) (mp := mp) ok.st ok.role (by simp)
    (le_trans (Multiset.le_add_right _ _) (Multiset.le_add_left _ _))) ?_
  rintro ⟨rc, n, out⟩ L' ⟨st', g1, g2, g3, g4, hx⟩
  simp only at g4
  subst g4
  have hok' : SnOk dvp spriv (({ z.1 with r := { z.1.r with st := st' } } : SnPtr),
      ({ z.2 with s := (sessionWrite (pack conf msg) z.2.s).2.2 } : Sn)) :=
    ⟨hok.ne, g1, hok.role.trans g2.symm, hok.pid.trans g3.symm, hok.id, hok.dv, hok.istr, hok.pstr,
      hok.peer.write _ g2 g3, hok.spriv⟩
  rcases hx with ⟨hs, b, hb, hn, rfl⟩ | ⟨hs, hb, rfl⟩
  · refine encapFree_tri hm (L := {(out, .bytes b)} + (snB (({ z.1 with r := { z.1.r with st := st' } } : SnPtr),
      ({ z.2 with s := (sessionWrite (pack conf msg) z.2.s).2.2 } : Sn)) + L)) (by simp only [snB]; abel) ?_
    exact Tri.pure ⟨_, hok', rfl, rfl, rfl, .inl ⟨hs, b, hb, hn, rfl⟩⟩
  · refine encapFree_tri hm (L := snB (({ z.1 with r := { z.1.r with st := st' } } : SnPtr),
      ({ z.2 with s := (sessionWrite (pack conf msg) z.2.s).2.2 } : Sn)) + L) (by simp only [snB]; abel) ?_
    exact Tri.pure ⟨_, hok', rfl, rfl, rfl, .inr ⟨hs, hb, rfl⟩⟩

theorem read_tri {z : SnPtr × Sn} (ok : SnOk dvp spriv z) {d : Dev} {r : DeviceRec} {istr : ℕ} {prlg pub : Bytes}
    {ns : List Node} (i : DevIn L dvp d r istr prlg pub ns) (input : Bytes) :
    Tri h0 (snB z + L) (sessionReadAt z.1.a input) (fun x L' =>
      let g := sessionRead (d.peers.map fun e => ⟨e.id, e.key⟩) z.2.s input
      ∃ z', SnOk dvp spriv z' ∧ z'.1.a = z.1.a ∧ z'.2.s = g.2.2 ∧ x.1 = g.1 ∧
      ((g.1.isSuccess = true ∧ ∃ em mp, g.2.1 = some em ∧ (em.msg = [] → mp = 0) ∧
          L' = {(x.2, .encap em.level em.msg.length mp)} + (prlgBlock mp em.msg + (snB z' + L))) ∨
        (g.1.isSuccess = false ∧ g.2.1 = none ∧ L' = snB z' + L))) := by
  have i' : DevIn (({(z.1.r.info, .str z.1.istr)} + strBlock z.1.istr z.2.name) + L) dvp d r istr prlg pub ns :=
    i.mono (Multiset.le_add_left _ _)
  have t := sessionReadAt_tri (h0 := h0) (a := z.1.a) ok.st ok.role ok.pid ok.pstr ok.peer ok.dv i' input
  refine Tri.perm (by simp only [snB]; abel) (Tri.mono t ?_)
  rintro ⟨rc, emp⟩ L' ⟨st', pstr', pname', g1, g2, g3, g4, g5, hx⟩
  generalize sessionRead (d.peers.map fun e => ⟨e.id, e.key⟩) z.2.s input = g at *
  have hok' : SnOk dvp spriv (({ z.1 with
        r := { z.1.r with pid := g.2.2.pid, st := st' }, pstr := pstr', pname := pname' } : SnPtr),
      ({ z.2 with
        s := g.2.2, peer := if z.2.s.pid = 0 then nameOf d g.2.2.pid else z.2.peer,
        heard := heardAfter z.2.heard z.2.s g.1 } : Sn)) :=
    ⟨ok.ne, g1, ok.role.trans g2.symm, rfl, ok.id, ok.dv, ok.istr, g3, g4, ok.spriv⟩
  refine ⟨_, hok', rfl, rfl, g5, ?_⟩
  rcases hx with ⟨hs, em, mp, he, hmp, rfl⟩ | ⟨hs, he, rfl⟩
  · exact .inl ⟨hs, em, mp, he, hmp, by simp only [snB]; abel⟩
  · exact .inr ⟨hs, he, by simp only [snB]; abel⟩

theorem unpack_eq (auth : ℕ) (em : Encap) : unpack auth em =
    if (if em.msg.length = 0 then true else authOk auth em.level) = true then some em.msg else none := by
  unfold unpack authOk; rfl

theorem unpack_tri {em : Encap} {mp emp : ℕ} (auth : ℕ) :
    Tri h0 ({(emp, .encap em.level em.msg.length mp)} + (prlgBlock mp em.msg + L)) (unpackMsg auth emp) (fun u L' =>
      (unpack auth em = none ∧ em.msg ≠ [] ∧ u.1 = false ∧
        L' = {(emp, .encap em.level em.msg.length mp)} + (prlgBlock mp em.msg + L)) ∨
      (unpack auth em = some em.msg ∧ u.1 = true ∧ u.2.1 = em.msg.length ∧ (em.msg = [] → u.2.2 = 0) ∧
        L' = {(emp, .encap em.level em.msg.length mp)} + (prlgBlock mp em.msg + (prlgBlock u.2.2 em.msg + L)))) := by
  unfold unpackMsg
  refine Tri.read (fun h x => x.loadEncap (l := em.level) (n := em.msg.length) (p := mp) (by simp)) ?_
  have hu := unpack_eq auth em
  simp only
  by_cases hl : em.msg.length > 0
  · have hne : em.msg ≠ [] := List.length_pos_iff.mp hl
    have hn : em.msg.length ≠ 0 := by omega
    simp only [hn, if_false] at hu ⊢
    by_cases hb : authOk auth em.level = true
    · rw [if_pos hb] at hu ⊢
      simp only [hl, if_true]
      refine Tri.read (fun h x => x.loadAll (b := em.msg) (by simp [prlgBlock, hne]) rfl) ?_
      refine Tri.alloc _ fun m _ => ?_
      refine Tri.pure (.inr ⟨hu, rfl, rfl, fun h => absurd h hne, ?_⟩)
      simp only [prlgBlock, hne, if_false]
      abel
    · rw [if_neg hb] at hu ⊢
      exact Tri.pure (.inl ⟨hu, hne, rfl, rfl⟩)
  · have hne : em.msg = [] := by
      rw [← List.length_eq_zero_iff]; omega
    have hn : em.msg.length = 0 := by omega
    simp only [hn, if_true] at hu
    simp only [hn, if_true, gt_iff_lt, lt_irrefl, if_false]
    refine Tri.pure (.inr ⟨hu, rfl, rfl, fun _ => rfl, ?_⟩)
    simp [prlgBlock, hne]

/-- Blocks of an encapsulation that are not freed. -/
theorem card_prlgBlock {p : ℕ} {b : Bytes} : Multiset.card (prlgBlock p b) = if b = [] then 0 else 1 := by
  unfold prlgBlock
  split <;> simp

/-! ### Encryption -/

theorem encryptNoiseAt_tri {z : SnPtr × Sn} (ok : SnOk dvp spriv z) (input : Bytes) (len : ℕ) :
    Tri h0 (snB z + L) (encryptNoiseAt z.1.a input len) (fun x L' => ∃ z', SnOk dvp spriv z' ∧ z'.1.a = z.1.a ∧
      encryptNoise (.live z.2.s) input len = .ok (x.1, .live z'.2.s, x.2) ∧ L' = snB z' + L) := by
  have e : encryptNoiseAt z.1.a input len = (if z.1.a = 0 then pure (1, none)
      else if input.length > 1024 then pure (2, none)
      else sendHead z.1.a 5 input >>= fun r =>
        if !r.1.isSuccess then pure (3, none)
        else if r.2.1 ≠ len then do
          freeSome r.2.2
          pure (4, none)
        else if r.2.2 = 0 then pure (6, none)
        else do
          let b ← loadN r.2.2 r.2.1
          free r.2.2
          pure (0, some b)) := by
    simp only [encryptNoiseAt, sendHead, bind_assoc, pure_bind]
  rw [e, if_neg ok.ne]
  simp only [encryptNoise, Ptr.deref, C.ok_bind]
  by_cases hl : input.length > 1024
  · rw [if_pos hl, if_pos hl]
    exact Tri.pure ⟨z, ok, rfl, rfl, rfl⟩
  rw [if_neg hl, if_neg hl]
  have t := sendHead_tri (h0 := h0) (L := L) ok 5 input
  generalize sessionWrite (pack 5 input) z.2.s = g at t ⊢
  obtain ⟨rc, out, sn⟩ := g
  refine Tri.bind t ?_
  rintro ⟨rc', n, p⟩ L' ⟨z', ok', ha, hz, h1, hx⟩
  simp only at h1 hz hx
  subst h1 hz
  rcases hx with ⟨hs, b, rfl, hn, rfl⟩ | ⟨hs, rfl, rfl⟩
  · subst hn
    simp only [hs, Bool.not_true, Bool.false_eq_true, if_false, Option.getD_some]
    by_cases hlen : b.length ≠ len
    · rw [if_pos hlen, if_pos hlen]
      intro h s
      have hp : p ≠ 0 := s.ne (b := .bytes b) (by simp)
      rw [freeSome, if_pos hp]
      refine Tri.free rfl ?_ h s
      exact Tri.pure ⟨z', ok', ha, rfl, rfl⟩
    · rw [if_neg hlen, if_neg hlen]
      intro h s
      have hp : p ≠ 0 := s.ne (b := .bytes b) (by simp)
      rw [if_neg hp]
      refine Tri.read (fun h x => x.loadAll (b := b) (by simp) rfl) (Tri.free rfl ?_) h s
      exact Tri.pure ⟨z', ok', ha, rfl, rfl⟩
  · simp only [hs, Bool.not_false, if_true]
    exact Tri.pure ⟨z', ok', ha, rfl, rfl⟩

/-! ### Decryption -/

theorem decryptNoiseAt_tri {z : SnPtr × Sn} (ok : SnOk dvp spriv z) {dv : Noise.Device} {d : Dev} {r : DeviceRec} {istr : ℕ}
    {prlg pub : Bytes} {ns : List Node} (i : DevIn L dvp d r istr prlg pub ns)
    (hdv : dv.peers = d.peers.map fun e => ⟨e.id, e.key⟩) (input : Bytes) (len : ℕ) :
    Tri h0 (snB z + L) (decryptNoiseAt z.1.a input len) (fun x L' => ∃ z' U, SnOk dvp spriv z' ∧ z'.1.a = z.1.a ∧
      decryptNoise dv (.live z.2.s) input len = .ok (x.1, .live z'.2.s, x.2) ∧
      Multiset.card U = decryptLeak dv (.live z.2.s) input ∧ L' = snB z' + (L + U)) := by
  unfold decryptNoiseAt
  rw [if_neg ok.ne]
  simp only [decryptNoise, decryptLeak, Ptr.deref, C.ok_bind]
  by_cases hl : input.length > 1024
  · rw [if_pos hl, if_pos hl]
    exact Tri.pure ⟨z, 0, ok, rfl, rfl, by rw [if_pos hl]; rfl, by rw [add_zero]⟩
  rw [if_neg hl, if_neg hl, if_neg hl]
  have t := read_tri (h0 := h0) ok i input
  rw [hdv]
  generalize sessionRead (d.peers.map fun e => ⟨e.id, e.key⟩) z.2.s input = g at t ⊢
  obtain ⟨rc, em, sn⟩ := g
  refine Tri.bind t ?_
  rintro ⟨rc', p⟩ L' ⟨z', ok', ha, hz, h1, hx⟩
  simp only at h1 hz hx
  subst h1 hz
  rcases hx with ⟨hs, em, mp, rfl, hmp, rfl⟩ | ⟨hs, rfl, rfl⟩
  · simp only [hs, Bool.not_true, Bool.false_eq_true, if_false, Option.bind_some]
    refine Tri.bind (unpack_tri (em := em) (mp := mp) (emp := p) 2) ?_
    rintro ⟨b, n, q⟩ L' hx
    simp only at hx
    rcases hx with ⟨hu, hne, rfl, rfl⟩ | ⟨hu, rfl, rfl, hq, rfl⟩
    · rw [hu]
      refine Tri.pure ⟨z', {(p, .encap em.level em.msg.length mp)} + prlgBlock mp em.msg, ok', ha, rfl, ?_, by abel⟩
      simp [unfreed, hu, card_prlgBlock, hne]
    · rw [hu]
      have hz : ∀ {n}, Multiset.card (0 : Blocks) = n ↔ n = 0 := by intro n; simp [eq_comm]
      have hleak : unfreed 2 true (some em) = 0 := by simp [unfreed, hu]
      simp only [Bool.not_true, Bool.false_eq_true, if_false]
      refine encapFree_tri hmp (L := prlgBlock q em.msg + (snB z' + L)) rfl ?_
      by_cases hlen : em.msg.length ≠ len
      · rw [if_pos hlen, if_pos hlen]
        refine Tri.freeBuf hq rfl ?_
        exact Tri.pure ⟨z', 0, ok', ha, rfl, hz.mpr hleak, by rw [add_zero]⟩
      · rw [if_neg hlen, if_neg hlen]
        by_cases hm : em.msg = []
        · rw [if_neg (not_not.mpr (hq hm)), hm]
          exact Tri.pure ⟨z', 0, ok', ha, rfl, hz.mpr hleak, by simp [prlgBlock]⟩
        · intro h s
          simp only [prlgBlock, hm, if_false] at s
          rw [if_pos (s.ne (b := .bytes em.msg) (by simp))]
          refine Tri.read (fun h x => x.loadAll (b := em.msg) (by simp) rfl) (Tri.free rfl ?_) h s
          exact Tri.pure ⟨z', 0, ok', ha, rfl, hz.mpr hleak, by rw [add_zero]⟩
  · simp only [hs, Bool.not_false, if_true]
    exact Tri.pure ⟨z', 0, ok', ha, rfl, rfl, by rw [add_zero]⟩

/-! ### The end of the handshake -/

/-- The pointer as the value model describes it. -/
def ptrV (o : Option (SnPtr × Sn)) : Ptr Session := o.elim .freed fun z => .live z.2.s

/-- The value result of `finishReadAt`. -/
def finishReadV (peers : List Noise.Peer) (sn : Session) (msg : Bytes) : Int × Ptr Session :=
  match sessionRead peers sn msg with
  | (rc, em, sn) =>
    if !rc.isSuccess then (4, .freed)
    else
    match em.bind (unpack 0) with
    | none => (5, .freed)
    | some _ => (0, .live sn)

theorem finishReadAt_tri {z : SnPtr × Sn} (ok : SnOk dvp spriv z) {d : Dev} {r : DeviceRec} {istr : ℕ}
    {prlg pub : Bytes} {ns : List Node} (i : DevIn L dvp d r istr prlg pub ns) (msg : Bytes) :
    Tri h0 (snB z + L) (finishReadAt z.1.a msg) (fun x L' => ∃ o U,
      (∀ z', o = some z' → SnOk dvp spriv z' ∧ z'.1.a = z.1.a) ∧
      (x, ptrV o) = finishReadV (d.peers.map fun e => ⟨e.id, e.key⟩) z.2.s msg ∧ (o = none ↔ x ≠ 0) ∧
      Multiset.card U = unfreed 0 false (sessionRead (d.peers.map fun e => ⟨e.id, e.key⟩) z.2.s msg).2.1 ∧
      L' = o.elim 0 snB + (L + U)) := by
  unfold finishReadAt finishReadV
  have t := read_tri (h0 := h0) ok i msg
  generalize sessionRead (d.peers.map fun e => ⟨e.id, e.key⟩) z.2.s msg = g at t ⊢
  obtain ⟨rc, em, sn⟩ := g
  refine Tri.bind t ?_
  rintro ⟨rc', p⟩ L' ⟨z', ok', ha, hz, h1, hx⟩
  simp only at h1 hz hx
  subst h1 hz
  rcases hx with ⟨hs, em, mp, rfl, hmp, rfl⟩ | ⟨hs, rfl, rfl⟩
  · simp only [hs, Bool.not_true, Bool.false_eq_true, if_false, Option.bind_some]
    refine Tri.bind (unpack_tri (em := em) (mp := mp) (emp := p) 0) ?_
    rintro ⟨b, n, q⟩ L' hx
    simp only at hx
    rcases hx with ⟨hu, hne, rfl, rfl⟩ | ⟨hu, rfl, rfl, hq, rfl⟩
    · rw [hu]
      simp only [Bool.not_false, if_true]
      rw [← ha]
      refine Tri.drop (L1 := snB z') (L := L + ({(p, .encap em.level em.msg.length mp)} + prlgBlock mp em.msg)) (by abel)
        (sessionFree_drop ok') ?_
      refine Tri.pure ⟨none, {(p, .encap em.level em.msg.length mp)} + prlgBlock mp em.msg, by simp, rfl, by simp, ?_,
        (zero_add _).symm⟩
      simp [unfreed, hu, card_prlgBlock, hne]
    · rw [hu]
      simp only [Bool.not_true, Bool.false_eq_true, if_false]
      refine encapFree_tri hmp (L := prlgBlock q em.msg + (snB z' + L)) rfl ?_
      refine Tri.pure ⟨some z', prlgBlock q em.msg, ?_, rfl, by simp, ?_, by simp only [Option.elim_some]; abel⟩
      · rintro _ ⟨⟩; exact ⟨ok', ha⟩
      · simp [unfreed, hu, card_prlgBlock]
  · simp only [hs, Bool.not_false, if_true]
    rw [← ha]
    refine Tri.drop (L1 := snB z') (L := L) rfl (sessionFree_drop ok') ?_
    exact Tri.pure ⟨none, 0, by simp, rfl, by simp, rfl, by simp⟩

/-! ### The first two messages -/

/-- Both helpers write an empty message of 48 bytes. -/
def hello (e : Int) (sn : ℕ) : M (Int × ℕ × Option Bytes) := do
  let r ← sendHead sn 0 []
  if !r.1.isSuccess then do
    sessionFree sn
    pure (e, sn, none)
  else if r.2.1 ≠ 48 then do
    sessionFree sn
    free r.2.2
    pure (4, sn, none)
  else do
    let b ← loadN r.2.2 r.2.1
    free r.2.2
    pure (0, sn, some b)

def helloV (e : Int) (s : Session) : Int × Ptr Session × Option Bytes :=
  match sessionWrite (pack 0 []) s with
  | (rc, out, sn) =>
    if !rc.isSuccess then (e, .freed, none)
    else
      let m := out.getD []
      if m.length ≠ 48 then (4, .freed, none)
      else (0, .live sn, some m)

theorem hello_tri {z : SnPtr × Sn} (ok : SnOk dvp spriv z) {e : Int} (he : e ≠ 0) :
    Tri h0 (snB z + L) (hello e z.1.a) (fun x L' => x.2.1 = z.1.a ∧ ∃ o,
      (∀ z', o = some z' → SnOk dvp spriv z' ∧ z'.1.a = z.1.a) ∧ (x.1, ptrV o, x.2.2) = helloV e z.2.s ∧
      (o = none ↔ x.1 ≠ 0) ∧ L' = o.elim 0 snB + L) := by
  unfold hello helloV
  have t := sendHead_tri (h0 := h0) (L := L) ok 0 []
  generalize sessionWrite (pack 0 []) z.2.s = g at t ⊢
  obtain ⟨rc, out, sn⟩ := g
  refine Tri.bind t ?_
  rintro ⟨rc', n, p⟩ L' ⟨z', ok', ha, hz, h1, hx⟩
  simp only at h1 hz hx
  subst h1 hz
  rcases hx with ⟨hs, b, rfl, hn, rfl⟩ | ⟨hs, rfl, rfl⟩
  · subst hn
    simp only [hs, Bool.not_true, Bool.false_eq_true, if_false, Option.getD_some]
    by_cases hlen : b.length ≠ 48
    · rw [if_pos hlen, if_pos hlen]
      conv => arg 3; rw [← ha]
      refine Tri.drop (L1 := snB z') (L := {(p, .bytes b)} + L) (by abel) (sessionFree_drop ok') ?_
      refine Tri.free rfl ?_
      exact Tri.pure ⟨ha, none, by simp, rfl, by simp, by simp⟩
    · rw [if_neg hlen, if_neg hlen]
      refine Tri.read (fun h x => x.loadAll (b := b) (by simp) rfl) (Tri.free rfl ?_)
      refine Tri.pure ⟨rfl, some z', ?_, rfl, by simp, rfl⟩
      rintro _ ⟨⟩; exact ⟨ok', ha⟩
  · simp only [hs, Bool.not_false, if_true]
    conv => arg 3; rw [← ha]
    refine Tri.drop (L1 := snB z') (L := L) rfl (sessionFree_drop ok') ?_
    exact Tri.pure ⟨ha, none, by simp, rfl, by simp [he], by simp⟩

/-! ### The answer to the first message -/

def respTail (sn : ℕ) (inmsg : Bytes) : M (Int × ℕ × Option Bytes) := do
  let r ← sessionReadAt sn inmsg
  if !r.1.isSuccess then do
    sessionFree sn
    pure (2, sn, none)
  else do
    let u ← unpackMsg 0 r.2
    if !u.1 then do
      sessionFree sn
      pure (3, sn, none)
    else do
      encapFree r.2
      hello 4 sn

def respV (peers : List Noise.Peer) (sn : Session) (inmsg : Bytes) : Int × Ptr Session × Option Bytes :=
  match sessionRead peers sn inmsg with
  | (rc, em, sn) =>
    if !rc.isSuccess then (2, .freed, none)
    else
    match em.bind (unpack 0) with
    | none => (3, .freed, none)
    | some _ => helloV 4 sn

theorem respTail_tri {z : SnPtr × Sn} (ok : SnOk dvp spriv z) {d : Dev} {r : DeviceRec} {istr : ℕ}
    {prlg pub : Bytes} {ns : List Node} (i : DevIn L dvp d r istr prlg pub ns) (msg : Bytes) :
    Tri h0 (snB z + L) (respTail z.1.a msg) (fun x L' => x.2.1 = z.1.a ∧ ∃ o U,
      (∀ z', o = some z' → SnOk dvp spriv z' ∧ z'.1.a = z.1.a) ∧
      (x.1, ptrV o, x.2.2) = respV (d.peers.map fun e => ⟨e.id, e.key⟩) z.2.s msg ∧ (o = none ↔ x.1 ≠ 0) ∧
      Multiset.card U = unfreed 0 false (sessionRead (d.peers.map fun e => ⟨e.id, e.key⟩) z.2.s msg).2.1 ∧
      L' = o.elim 0 snB + (L + U)) := by
  unfold respTail respV
  have t := read_tri (h0 := h0) ok i msg
  generalize sessionRead (d.peers.map fun e => ⟨e.id, e.key⟩) z.2.s msg = g at t ⊢
  obtain ⟨rc, em, sn⟩ := g
  refine Tri.bind t ?_
  rintro ⟨rc', p⟩ L' ⟨z', ok', ha, hz, h1, hx⟩
  simp only at h1 hz hx
  subst h1 hz
  rcases hx with ⟨hs, em, mp, rfl, hmp, rfl⟩ | ⟨hs, rfl, rfl⟩
  · simp only [hs, Bool.not_true, Bool.false_eq_true, if_false, Option.bind_some]
    refine Tri.bind (unpack_tri (em := em) (mp := mp) (emp := p) 0) ?_
    rintro ⟨b, n, q⟩ L' hx
    simp only at hx
    rcases hx with ⟨hu, hne, rfl, rfl⟩ | ⟨hu, rfl, rfl, hq, rfl⟩
    · rw [hu]
      simp only [Bool.not_false, if_true]
      rw [← ha]
      refine Tri.drop (L1 := snB z') (L := L + ({(p, .encap em.level em.msg.length mp)} + prlgBlock mp em.msg)) (by abel)
        (sessionFree_drop ok') ?_
      refine Tri.pure ⟨rfl, none, {(p, .encap em.level em.msg.length mp)} + prlgBlock mp em.msg, by simp, rfl, by simp, ?_,
        (zero_add _).symm⟩
      simp [unfreed, hu, card_prlgBlock, hne]
    · rw [hu]
      simp only [Bool.not_true, Bool.false_eq_true, if_false]
      refine encapFree_tri hmp (L := snB z' + (L + prlgBlock q em.msg)) (by abel) ?_
      rw [← ha]
      refine Tri.mono (hello_tri ok' (by decide)) ?_
      rintro x L' ⟨g1, o, g2, g3, g4, g5⟩
      refine ⟨g1, o, prlgBlock q em.msg, g2, g3, g4, ?_, g5⟩
      simp [unfreed, hu, card_prlgBlock]
  · simp only [hs, Bool.not_false, if_true]
    rw [← ha]
    refine Tri.drop (L1 := snB z') (L := L) rfl (sessionFree_drop ok') ?_
    exact Tri.pure ⟨rfl, none, 0, by simp, rfl, by simp, rfl, by simp⟩

theorem respondNoise_eq (dv : Noise.Device) (inmsg : Bytes) (epriv : B32) : respondNoise dv inmsg epriv =
    match createResponder dv epriv with
    | (none, dv) => (1, dv, .null, none)
    | (some sn, dv) => ((respV dv.peers sn inmsg).1, dv, (respV dv.peers sn inmsg).2) := by
  unfold respondNoise respV helloV
  rcases createResponder dv epriv with ⟨_ | sn, dv⟩
  · rfl
  · simp only
    rcases sessionRead dv.peers sn inmsg with ⟨rc, em, sn⟩
    simp only
    split
    · rfl
    · rcases em.bind (unpack 0) with _ | m
      · rfl
      · simp only
        rcases sessionWrite (pack 0 []) sn with ⟨rc, out, sn⟩
        simp only
        split
        · rfl
        · split <;> rfl

theorem initNoise_eq (dv : Noise.Device) (slot : Ptr Session) (rpk epriv : B32) : initNoise dv slot rpk epriv =
    match deviceAddPeer dv rpk with
    | (none, dv) => (1, dv, slot, none)
    | (some pid, dv) =>
      match createInitiator dv pid epriv with
      | (none, dv) => (2, dv, .null, none)
      | (some sn, dv) => ((helloV 3 sn).1, dv, (helloV 3 sn).2) := by
  unfold initNoise helloV
  rcases deviceAddPeer dv rpk with ⟨_ | pid, dv⟩
  · rfl
  · simp only
    rcases createInitiator dv pid epriv with ⟨_ | sn, dv⟩
    · rfl
    · simp only
      rcases sessionWrite (pack 0 []) sn with ⟨rc, out, sn⟩
      simp only
      split
      · rfl
      · split <;> rfl

theorem initNoiseAt_eq (dvp slot : ℕ) (name : Bytes) (rpk epriv : B32) : initNoiseAt dvp slot name rpk epriv = (do
    let peer ← addPeer dvp (some name) rpk
    if peer = 0 then pure (1, slot, none)
    else do
      let pid ← peerGetId peer
      let sn ← createInit dvp pid epriv
      if sn = 0 then pure (2, sn, none)
      else hello 3 sn) := by
  simp only [initNoiseAt, hello, sendHead, bind_assoc, pure_bind]

theorem respondNoiseAt_eq (dvp : ℕ) (inmsg : Bytes) (epriv : B32) : respondNoiseAt dvp inmsg epriv = (do
    let sn ← createResp dvp epriv
    if sn = 0 then pure (1, sn, none)
    else respTail sn inmsg) := by
  simp only [respondNoiseAt, respTail, hello, sendHead, bind_assoc, pure_bind]

/-! ### Which pointers are freed -/

/-- `m` ends with `q` free. -/
def Ends {α : Type} (q : ℕ) (m : M α) : Prop := ∀ h a h', m h = .ok (a, h') → h'.mem q = none

theorem Ends.bind {α β : Type} {q : ℕ} {m : M α} {f : α → M β} (h2 : ∀ a, Ends q (f a)) : Ends q (m >>= f) := by
  intro h b h' e
  rw [run_bind] at e
  obtain ⟨⟨a, h1'⟩, e1, e2⟩ := C.bind_eq_ok.mp e
  exact h2 a h1' b h' e2

theorem Ends.free {q : ℕ} (hq : q ≠ 0) : Ends q (Mem.free q) := by
  intro h u h' e
  unfold Mem.free at e
  rw [if_neg hq] at e
  split at e
  · cases e
  · cases e
    simp

theorem ends_sessionFree {q : ℕ} (hq : q ≠ 0) : Ends q (sessionFree q) := by
  unfold sessionFree
  repeat refine Ends.bind fun _ => ?_
  exact Ends.free hq

/-- If the result satisfies `P` then `q` is free. -/
def Frees {α : Type} (q : ℕ) (P : α → Prop) (m : M α) : Prop :=
  ∀ h a h', m h = .ok (a, h') → q < h.next → P a → h'.mem q = none

section
variable {α β : Type} {q : ℕ} {P : β → Prop}

theorem Frees.bind {m : M α} {f : α → M β} (k : Keeps m) (h2 : ∀ a, Frees q P (f a)) : Frees q P (m >>= f) := by
  intro h b h' e hq
  rw [run_bind] at e
  obtain ⟨⟨a, h1'⟩, e1, e2⟩ := C.bind_eq_ok.mp e
  exact h2 a h1' b h' e2 (lt_of_lt_of_le hq (k _ _ _ e1).1)

theorem Frees.pure {b : β} (hb : ¬ P b) : Frees q P (Pure.pure b) := by
  intro h a h' e _ hp
  rw [run_pure] at e
  cases e
  exact absurd hp hb

theorem Frees.session {f : Unit → M β} (hq : q ≠ 0) (k : Keeps (f ())) : Frees q P (sessionFree q >>= f) := by
  intro h b h' e hlt _
  rw [run_bind] at e
  obtain ⟨⟨a, h1'⟩, e1, e2⟩ := C.bind_eq_ok.mp e
  exact (k _ _ _ e2).2 q (lt_of_lt_of_le hlt (keeps_sessionFree q _ _ _ e1).1) (ends_sessionFree hq _ _ _ e1)

end

theorem keeps_sendHead (a c : ℕ) (m : Bytes) : Keeps (sendHead a c m) := by unfold sendHead; keeps4
theorem keeps_hello (e : Int) (a : ℕ) : Keeps (hello e a) := by
  have := keeps_sendHead
  unfold hello
  keeps4
  all_goals first | with_reducible exact this _ _ _ | skip
theorem keeps_respTail (a : ℕ) (m : Bytes) : Keeps (respTail a m) := by
  have := keeps_hello
  unfold respTail
  keeps4
  all_goals first | with_reducible exact this _ _ | skip

theorem frees_hello {e : Int} {q : ℕ} (hq : q ≠ 0) : Frees q (fun x => x.1 ≠ 0) (hello e q) := by
  unfold hello
  refine Frees.bind (keeps_sendHead _ _ _) fun r => ?_
  split
  · exact Frees.session hq (Keeps.pure _)
  · split
    · exact Frees.session hq (Keeps.bind (Keeps.free _) fun _ => Keeps.pure _)
    · refine Frees.bind (keeps_loadN _ _) fun b => Frees.bind (Keeps.free _) fun _ => Frees.pure ?_
      simp

theorem frees_respTail {q : ℕ} (hq : q ≠ 0) (m : Bytes) : Frees q (fun x => x.1 ≠ 0) (respTail q m) := by
  unfold respTail
  refine Frees.bind (keeps_sessionReadAt _ _) fun r => ?_
  split
  · exact Frees.session hq (Keeps.pure _)
  · refine Frees.bind (keeps_unpackMsg _ _) fun u => ?_
    split
    · exact Frees.session hq (Keeps.pure _)
    · exact Frees.bind (keeps_encapFree _) fun _ => frees_hello hq

theorem frees_finishReadAt {q : ℕ} (hq : q ≠ 0) (m : Bytes) : Frees q (fun x => x ≠ 0) (finishReadAt q m) := by
  unfold finishReadAt
  refine Frees.bind (keeps_sessionReadAt _ _) fun r => ?_
  split
  · exact Frees.session hq (Keeps.pure _)
  · refine Frees.bind (keeps_unpackMsg _ _) fun u => ?_
    split
    · exact Frees.session hq (Keeps.pure _)
    · exact Frees.bind (keeps_encapFree _) fun _ => Frees.pure (by simp)

theorem frees_finishNoiseAt {q : ℕ} (hq : q ≠ 0) (log : Bool) (dvp : ℕ) (m : Bytes) :
    Frees q (fun x => x ≠ 0) (finishNoiseAt log dvp q m) := by
  unfold finishNoiseAt
  rw [if_neg hq]
  split
  · refine Frees.bind (keeps_getPeerId _) fun pid => Frees.bind (keeps_lookupById _ _) fun peer => ?_
    split
    · exact Frees.session hq (Keeps.pure _)
    · refine Frees.bind (keeps_peerGetInfo _) fun pinfo => ?_
      split
      · exact Frees.session hq (Keeps.pure _)
      · exact Frees.bind (keeps_storedStr _) fun _ => Frees.bind (Keeps.free _) fun _ => frees_finishReadAt hq m
  · exact frees_finishReadAt hq m

/-! ### Uses of a pointer that was freed -/

theorem loadSession_freed {h : Heap} {q : ℕ} (hm : h.mem q = none) : ∃ u, loadSession q h = .ub u := by
  unfold loadSession
  rw [run_bind]
  unfold Mem.load
  by_cases hq : q = 0
  · rw [if_pos hq]; exact ⟨_, rfl⟩
  · rw [if_neg hq, hm]; exact ⟨_, rfl⟩

theorem bind_ub {α β : Type} {m : M α} {f : α → M β} {h : Heap} (hm : ∃ u, m h = .ub u) : ∃ u, (m >>= f) h = .ub u := by
  obtain ⟨u, hu⟩ := hm
  exact ⟨u, by rw [run_bind, hu]; rfl⟩

theorem sessionReadAt_freed {h : Heap} {q : ℕ} (hm : h.mem q = none) (m : Bytes) : ∃ u, sessionReadAt q m h = .ub u := by
  unfold sessionReadAt
  exact bind_ub (loadSession_freed hm)

theorem sessionFree_freed {h : Heap} {q : ℕ} (hm : h.mem q = none) : ∃ u, sessionFree q h = .ub u := by
  unfold sessionFree
  exact bind_ub (loadSession_freed hm)

theorem getKey_freed {h : Heap} {q : ℕ} (hm : h.mem q = none) : ∃ u, getKey q h = .ub u := by
  unfold getKey
  exact bind_ub (loadSession_freed hm)

theorem finishNoiseAt_freed {h : Heap} {q : ℕ} (hq : q ≠ 0) (hm : h.mem q = none) (log : Bool) (dvp : ℕ) (m : Bytes) :
    ∃ u, finishNoiseAt log dvp q m h = .ub u := by
  unfold finishNoiseAt
  rw [if_neg hq]
  split
  · unfold getPeerId
    simp only [bind_assoc]
    exact bind_ub (loadSession_freed hm)
  · unfold finishReadAt
    exact bind_ub (sessionReadAt_freed hm m)

theorem decryptNoiseAt_freed {h : Heap} {q : ℕ} (hq : q ≠ 0) (hm : h.mem q = none) {m : Bytes} (hl : m.length ≤ 1024) (len : ℕ) :
    ∃ u, decryptNoiseAt q m len h = .ub u := by
  unfold decryptNoiseAt
  rw [if_neg hq, if_neg (by omega)]
  exact bind_ub (sessionReadAt_freed hm m)

theorem encryptNoiseAt_freed {h : Heap} {q : ℕ} (hq : q ≠ 0) (hlt : q < h.next) (hm : h.mem q = none) {m : Bytes}
    (hl : m.length ≤ 1024) (len : ℕ) : ∃ u, encryptNoiseAt q m len h = .ub u := by
  unfold encryptNoiseAt
  rw [if_neg hq, if_neg (by omega), run_bind]
  rcases e : packMsg 5 m h with ⟨em, h1⟩ | u
  · rw [C.ok_bind]
    refine bind_ub ?_
    unfold sessionWriteAt
    exact bind_ub (loadSession_freed ((keeps_packMsg 5 m _ _ _ e).2 q hlt hm))
  · exact ⟨u, rfl⟩

end

end Verif.Noise.Mem
