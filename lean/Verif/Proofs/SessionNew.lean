import Verif.Proofs.SessionReads

/-!
# New sessions on the heap
-/

set_option linter.unusedSectionVars false

namespace Verif.Noise.Mem

open NoiseCrypto Spec.Device Spec.SessionMem

/-! ### New sessions -/

section
variable [Hashes] [NoiseCrypto] {β : Type} {h0 : Heap} {L : Blocks} {R : β → Blocks → Prop} {p : HsPtr} {s : HS}

theorem Tri.setCk {v : B64} {f : Unit → M β}
    (k : Tri h0 (hsBlocks p { s with ck := v } + L) (f ()) R) :
    Tri h0 (hsBlocks p s + L) (Mem.writeAt p.ck 0 v.toList >>= f) R := by
  refine Tri.write (old := s.ck.toList) (L1 := {(p.k, .bytes s.cipherKey.toList)} +
    {(p.h, .bytes s.h.toList)} +
    {(p.spriv, .bytes s.spriv.toList)} + {(p.spub, .bytes s.spub.toList)} + {(p.epriv, .bytes s.epriv.toList)} +
    {(p.epub, .bytes s.epub.toList)} + {(p.rs, .bytes s.rs.toList)} + {(p.re, .bytes s.re.toList)} + L)
    (by simp only [hsBlocks]; abel) (by simp) ?_
  refine Tri.perm ?_ k
  simp only [hsBlocks]; abel

theorem Tri.setEpriv {v : B32} {f : Unit → M β}
    (k : Tri h0 (hsBlocks p { s with epriv := v } + L) (f ()) R) :
    Tri h0 (hsBlocks p s + L) (Mem.writeAt p.epriv 0 v.toList >>= f) R := by
  refine Tri.write (old := s.epriv.toList) (L1 := {(p.k, .bytes s.cipherKey.toList)} + {(p.ck, .bytes s.ck.toList)} +
    {(p.h, .bytes s.h.toList)} +
    {(p.spriv, .bytes s.spriv.toList)} + {(p.spub, .bytes s.spub.toList)} +
    {(p.epub, .bytes s.epub.toList)} + {(p.rs, .bytes s.rs.toList)} + {(p.re, .bytes s.re.toList)} + L)
    (by simp only [hsBlocks]; abel) (by simp) ?_
  refine Tri.perm ?_ k
  simp only [hsBlocks]; abel

theorem Tri.setEpub {v : B32} {f : Unit → M β}
    (k : Tri h0 (hsBlocks p { s with epub := v } + L) (f ()) R) :
    Tri h0 (hsBlocks p s + L) (Mem.writeAt p.epub 0 v.toList >>= f) R := by
  refine Tri.write (old := s.epub.toList) (L1 := {(p.k, .bytes s.cipherKey.toList)} + {(p.ck, .bytes s.ck.toList)} +
    {(p.h, .bytes s.h.toList)} +
    {(p.spriv, .bytes s.spriv.toList)} + {(p.spub, .bytes s.spub.toList)} + {(p.epriv, .bytes s.epriv.toList)} +
    {(p.rs, .bytes s.rs.toList)} + {(p.re, .bytes s.re.toList)} + L)
    (by simp only [hsBlocks]; abel) (by simp) ?_
  refine Tri.perm ?_ k
  simp only [hsBlocks]; abel

/-- The protocol name in a zeroed buffer. -/
theorem Tri.setName (hz : s.h.toList = List.replicate 64 0) {f : Unit → M β}
    (k : Tri h0 (hsBlocks p { s with h := Noise.h0 } + L) (f ()) R) :
    Tri h0 (hsBlocks p s + L) (Mem.writeAt p.h 0 protocolName >>= f) R := by
  refine Tri.writeAt (old := s.h.toList) (L1 := {(p.k, .bytes s.cipherKey.toList)} + {(p.ck, .bytes s.ck.toList)} +
    {(p.spriv, .bytes s.spriv.toList)} + {(p.spub, .bytes s.spub.toList)} + {(p.epriv, .bytes s.epriv.toList)} +
    {(p.epub, .bytes s.epub.toList)} + {(p.rs, .bytes s.rs.toList)} + {(p.re, .bytes s.re.toList)} + L)
    (by simp only [hsBlocks]; abel) (by rw [hz]; decide) ?_
  have : s.h.toList.take 0 ++ protocolName ++ s.h.toList.drop (0 + protocolName.length) = Noise.h0.toList := by
    rw [hz]; rfl
  rw [this]
  refine Tri.perm ?_ k
  simp only [hsBlocks]; abel

def zero64 : B64 := Vector.replicate 64 0

theorem zero64_list : (zero64 : B64).toList = List.replicate 64 0 := by simp [zero64]

theorem zero32_list : (zero32 : B32).toList = List.replicate 32 0 := by decide +kernel

/-- The first state of a handshake. -/
def firstHS (prologue : Bytes) (spriv spub epriv mixed rs : B32) : HS :=
  { step := 0, cipherKey := zero32, ck := Noise.h0, h := Noise.mixHash (Noise.mixHash Noise.h0 prologue) mixed.toList,
    spriv, spub, epriv, epub := xbase epriv, rs, re := zero32 }

theorem newState_tri {dv : DeviceRec} {prlg : Bytes} (hl : dv.prlgLen = prlg.length) (hp : prlgBlock dv.prlg prlg ≤ L)
    {spriv spub : ℕ} {sv pv : B32} (epriv : B32) (rs : Option (ℕ × B32))
    (hr : ∀ x, rs = some x → (x.1, Block.bytes x.2.toList) ∈ L) :
    Tri h0 ({(spriv, .bytes sv.toList)} + {(spub, .bytes pv.toList)} + L) (newState dv spriv spub epriv (rs.map (·.1)))
      (fun p L' => p.step = 0 ∧ p.spriv = spriv ∧ p.spub = spub ∧
        L' = hsBlocks p (firstHS prlg sv pv epriv ((rs.map (·.2)).getD pv) ((rs.map (·.2)).getD zero32)) + L) := by
  unfold newState calloc
  refine Tri.alloc _ fun k _ => ?_
  refine Tri.alloc _ fun ck _ => ?_
  refine Tri.alloc _ fun h _ => ?_
  refine Tri.alloc _ fun ep _ => ?_
  refine Tri.alloc _ fun eb _ => ?_
  refine Tri.alloc _ fun r _ => ?_
  refine Tri.alloc _ fun re _ => ?_
  let p0 : HsPtr := { step := 0, k, ck, h, spriv, spub, epriv := ep, epub := eb, rs := r, re }
  let s0 : HS := { step := 0, cipherKey := zero32, ck := zero64, h := zero64, spriv := sv, spub := pv, epriv := zero32,
                   epub := zero32, rs := zero32, re := zero32 }
  refine Tri.perm (L1 := hsBlocks p0 s0 + L)
    (by simp only [hsBlocks, p0, s0, zero32_list, zero64_list]; abel) ?_
  refine Tri.setName (p := p0) zero64_list ?_
  refine Tri.read (fun h x => x.loadN64 (v := Noise.h0) (by simp [hsBlocks, p0])) ?_
  refine Tri.setCk (p := p0) ?_
  refine Tri.read (fun h x => x.loadBuf (b := prlg) (le_trans hp (Multiset.le_add_left _ _)) hl) ?_
  refine Tri.mixHash (p := p0) ?_
  refine Tri.setEpriv (p := p0) ?_
  refine Tri.setEpub (p := p0) ?_
  cases rs with
  | none =>
    simp only [Option.map_none, bind_assoc]
    refine Tri.read (fun h x => x.loadN (v := pv) (by simp [hsBlocks, p0, s0])) ?_
    refine Tri.mixHash (p := p0) ?_
    exact Tri.pure ⟨rfl, rfl, rfl, rfl⟩
  | some x =>
    simp only [Option.map_some, bind_assoc]
    have hm := hr x rfl
    refine Tri.read (fun h y => y.loadN (v := x.2) (Multiset.mem_add.mpr (.inr hm))) ?_
    refine Tri.setRs (p := p0) ?_
    refine Tri.read (fun h y => y.loadN (v := x.2) (Multiset.mem_add.mpr (.inr hm))) ?_
    refine Tri.mixHash (p := p0) ?_
    exact Tri.pure ⟨rfl, rfl, rfl, rfl⟩

end

/-- Addresses and contents of a session. -/
structure SnPtr where
  a : ℕ
  r : SessionRec
  istr : ℕ
  pstr : ℕ
  pname : Bytes
  spriv : B32
  spub : B32

def snB (z : SnPtr × Sn) : Blocks :=
  core z.1.a z.1.r z.1.spriv z.1.spub z.2.s.st + ({(z.1.r.pinfo, .str z.1.pstr)} + (strBlock z.1.pstr z.1.pname +
    ({(z.1.r.info, .str z.1.istr)} + strBlock z.1.istr z.2.name)))

structure SnOk (dvp : ℕ) (spriv : B32) (z : SnPtr × Sn) : Prop where
  ne : z.1.a ≠ 0
  st : StOk z.1.r z.1.spriv z.1.spub z.2.heard z.2.s.st
  role : z.1.r.role = z.2.s.role
  pid : z.1.r.pid = z.2.s.pid
  id : z.1.r.id = z.2.id
  dv : z.1.r.dv = dvp
  istr : StrOk z.1.istr z.2.name
  pstr : StrOk z.1.pstr z.1.pname
  peer : PeerOk z.2.s z.2.peer z.1.pname
  spriv : z.1.spriv = spriv

/-- The blocks of a device. -/
def devAll (dvp : ℕ) (r : DeviceRec) (istr : ℕ) (d : Dev) (prlg pub : Bytes) (ns : List Node) : Blocks :=
  devBlocks dvp r istr d prlg pub (headOf ns) + cells ns + bodies ns

section
variable [Hashes] [NoiseCrypto] {h0 h : Heap} {X : Blocks} {dvp : ℕ} {d : Dev} {r : DeviceRec} {istr : ℕ} {prlg : Bytes}
  {ns : List Node}

/-- The session that `session_create_initiator` makes. -/
theorem Rep.createInit {pub : Bytes} (s : Rep h0 h dvp d X r istr prlg pub ns) (hpub : pub = (xbase d.spriv).toList)
    (w : World) (hw : w.d = d) (hprl : w.prologue = prlg) (hst : r.states = w.next)
    (pid : UInt32) (epriv : B32) :
    ∃ a h', Mem.createInit dvp pid epriv h = .ok (a, h') ∧
      match createInitiator w.device pid epriv with
      | (none, _) => a = 0 ∧ h' = h
      | (some sn, dv) => dv.statesCounter = w.next + 1 ∧ ∃ x : SnPtr, x.a = a ∧
          SnOk dvp d.spriv (x, ⟨sn, w.next, d.name, w.peerName pid, false⟩) ∧
          Rep h0 h' dvp d (snB (x, ⟨sn, w.next, d.name, w.peerName pid, false⟩) + X) { r with states := w.next + 1 } istr prlg
            pub ns := by
  subst hw hprl hpub
  have hdev : w.device.statesCounter = w.next := rfl
  unfold createInitiator
  rw [hdev]
  by_cases hc : w.next = 4294967295
  · refine ⟨0, h, ?_, ?_⟩
    · unfold Mem.createInit
      rw [run_bind, s.device, C.ok_bind, hst, if_pos hc, run_pure]
    · rw [if_pos hc]; exact ⟨rfl, rfl⟩
  rw [if_neg hc]
  have hlook := s.lookupById pid
  have hfind : (if pid = 0 then none else w.device.peers.find? fun p => p.id == pid) =
      (ns.find? fun n => decide (n.e.id = pid)).map fun n => (⟨n.e.id, n.e.key⟩ : Peer) := by
    have h1 : (w.device.peers.find? fun p => p.id == pid) =
        (ns.find? fun n => decide (n.e.id = pid)).map fun n => (⟨n.e.id, n.e.key⟩ : Peer) := by
      simp only [World.device, s.peers, List.map_map, List.find?_map]
      simp only [Function.comp_def, Bool.beq_eq_decide_eq]
    by_cases h0' : pid = 0
    · subst h0'
      rw [if_pos rfl]
      have : (ns.find? fun n => decide (n.e.id = 0)) = none := by
        rw [List.find?_eq_none]
        intro n hn
        have := (s.ids.lt n.e (by rw [s.peers]; exact List.mem_map_of_mem hn)).1
        simp only [decide_eq_true_eq]
        intro h
        rw [h] at this
        exact absurd this (by decide)
      rw [this]; rfl
    · rw [if_neg h0', h1]
  rw [hfind]
  cases hf : ns.find? fun n => decide (n.e.id = pid) with
  | none =>
    rw [hf] at hlook
    refine ⟨0, h, ?_, rfl, rfl⟩
    unfold Mem.createInit
    rw [run_bind, s.device, C.ok_bind, hst, if_neg hc, run_bind, hlook]
    rfl
  | some n =>
    rw [hf] at hlook
    have hn := List.mem_of_find?_eq_some hf
    have hid : n.e.id = pid := by simpa using List.find?_some hf
    have hed : n.e ∈ w.d.peers := by rw [s.peers]; exact List.mem_map_of_mem hn
    have hpid : pid ≠ 0 := fun h => by
      have := (s.ids.lt n.e hed).1
      rw [hid, h] at this
      exact absurd this (by decide)
    have hname : w.peerName pid = n.e.name := by
      rw [← hid]; exact nameOf_mem s.ids hed
    have hb := s.body_le hn
    simp only [Option.map_some]
    have key : Tri h0 (devAll dvp r istr w.d w.prologue (xbase w.d.spriv).toList ns + X) (Mem.createInit dvp pid epriv)
        (fun a L' => a ≠ 0 ∧ ∃ x : SnPtr, x.a = a ∧
          SnOk dvp w.d.spriv (x, ⟨{ role := .initiator, pid, st := .handshake (firstHS w.prologue w.d.spriv (xbase w.d.spriv) epriv
            n.e.key n.e.key) }, w.next, w.d.name, n.e.name, false⟩) ∧
          L' = devAll dvp { r with states := w.next + 1 } istr w.d w.prologue (xbase w.d.spriv).toList ns +
            (snB (x, ⟨{ role := .initiator, pid, st := .handshake (firstHS w.prologue w.d.spriv (xbase w.d.spriv) epriv
              n.e.key n.e.key) }, w.next, w.d.name, n.e.name, false⟩) + X)) := by
      unfold Mem.createInit
      have rp : ∀ h, Sep h0 h (devAll dvp r istr w.d w.prologue (xbase w.d.spriv).toList ns + X) →
          Rep h0 h dvp w.d X r istr w.prologue (xbase w.d.spriv).toList ns := fun h x =>
        ⟨x, s.name, s.nodes, s.peers, s.counter, s.len, s.prlg, s.ids⟩
      have hpeerne : n.peer ≠ 0 := s.sep.ne (Multiset.mem_of_le hb (peer_mem_body n))
      refine Tri.read (fun h x => (rp h x).device) ?_
      rw [hst, if_neg hc]
      refine Tri.read (fun h x => (rp h x).lookupById pid) ?_
      rw [hf]
      simp only [Option.map_some, Option.getD_some, hpeerne, if_false, copyKey, bind_assoc]
      have hb' : ∀ Y, n.body ≤ Y + (devAll dvp r istr w.d w.prologue (xbase w.d.spriv).toList ns + X) := fun Y =>
        le_trans hb (Multiset.le_add_left _ _)
      have hd' : ∀ Y, devBlocks dvp r istr w.d w.prologue (xbase w.d.spriv).toList (headOf ns) ≤
          Y + (devAll dvp r istr w.d w.prologue (xbase w.d.spriv).toList ns + X) := fun Y =>
        le_trans (le_trans (le_trans (Multiset.le_add_right _ _) (Multiset.le_add_right _ _)) (Multiset.le_add_right _ X))
          (Multiset.le_add_left _ Y)
      refine Tri.read (fun h x => (rp h x).spriv) ?_
      refine Tri.alloc _ fun spriv _ => ?_
      refine Tri.read (fun h x => x.loadN (v := xbase w.d.spriv) (Multiset.mem_of_le (hd' _) (by simp [devBlocks]))) ?_
      refine Tri.alloc _ fun spub _ => ?_
      rw [← add_assoc]
      refine Tri.copyOf (q := istr) (t := w.d.name) (Multiset.mem_of_le (hd' _) (by simp [devBlocks])) s.name
        (le_trans (by
          refine le_trans ?_ (le_of_eq (rfl : devBlocks dvp r istr w.d w.prologue (xbase w.d.spriv).toList (headOf ns) = _))
          unfold devBlocks
          exact le_trans (Multiset.le_add_left _ _) (le_trans (Multiset.le_add_right _ _) (le_trans (Multiset.le_add_right _ _)
            (le_trans (Multiset.le_add_right _ _) (le_trans (Multiset.le_add_right _ _) (Multiset.le_add_right _ _)))))) (hd' _))
        (fun istr' hi' => ?_)
      refine Tri.alloc _ fun info _ => ?_
      rw [← add_assoc, ← add_assoc]
      refine Tri.read (fun h x => x.loadPeer (Multiset.mem_of_le (hb' _) (peer_mem_body n))) ?_
      refine Tri.copyOf (q := n.str) (t := n.e.name) (Multiset.mem_of_le (hb' _) (info_mem_body n)) (s.nodes n hn)
        (le_trans (str_le_body n) (hb' _)) (fun pstr hp' => ?_)
      refine Tri.alloc _ fun pinfo _ => ?_
      refine Tri.store (b := .device r) _ (L1 := {(pinfo, .str pstr)} + strBlock pstr n.e.name + {(info, .str istr')} +
        strBlock istr' w.d.name + {(spub, .bytes (xbase w.d.spriv).toList)} + {(spriv, .bytes w.d.spriv.toList)} +
        ({(r.info, .str istr)} + strBlock istr w.d.name + {(r.sk, .bytes w.d.sk.toList)} +
          {(r.spriv, .bytes w.d.spriv.toList)} + {(r.spub, .bytes (xbase w.d.spriv).toList)} + prlgBlock r.prlg w.prologue +
          {(r.peers, .head (headOf ns))}) + cells ns + bodies ns + X)
        (by simp only [devAll, devBlocks]; abel) ?_
      refine Tri.perm (L1 := {(spriv, .bytes w.d.spriv.toList)} + {(spub, .bytes (xbase w.d.spriv).toList)} +
        ({(pinfo, .str pstr)} + strBlock pstr n.e.name + {(info, .str istr')} + strBlock istr' w.d.name +
        (devAll dvp { r with states := w.next + 1 } istr w.d w.prologue (xbase w.d.spriv).toList ns + X)))
        (by simp only [devAll, devBlocks]; abel) ?_
      refine Tri.bind (newState_tri (prlg := w.prologue) (rs := some (n.key, n.e.key)) s.len ?_ epriv ?_) ?_
      · refine le_trans ?_ (Multiset.le_add_left _ _)
        refine le_trans ?_ (Multiset.le_add_right _ _)
        unfold devAll devBlocks
        exact le_trans (Multiset.le_add_left _ _) (le_trans (Multiset.le_add_right _ _) (le_trans (Multiset.le_add_right _ _)
          (Multiset.le_add_right _ _)))
      · rintro x hx
        injection hx with hx
        subst hx
        have : n.body ≤ devAll dvp { r with states := w.next + 1 } istr w.d w.prologue (xbase w.d.spriv).toList ns :=
          le_trans (Mem.body_le hn) (Multiset.le_add_left _ _)
        exact Multiset.mem_of_le (le_trans (le_trans this (Multiset.le_add_right _ _)) (Multiset.le_add_left _ _)) (key_mem_body n)
      · rintro p L' ⟨e1, e2, e3, rfl⟩
        refine Tri.tail ?_
        refine Tri.alloc _ fun a ha => ?_
        refine Tri.pure ⟨ha, ⟨a, { role := .initiator, st := .handshake p, id := w.next, info, spriv, spub, pid, pinfo, dv := dvp },
          istr', pstr, n.e.name, w.d.spriv, xbase w.d.spriv⟩, rfl, ⟨ha, ⟨e1, e2, e3, rfl, rfl, rfl⟩, rfl, rfl, rfl, rfl, hi', hp',
          ⟨fun _ => rfl, ⟨fun h => (nomatch h), fun _ => hpid, fun _ => hpid⟩⟩, rfl⟩, ?_⟩
        simp only [snB, core, stBlocks, Option.map_some, Option.getD_some]
        abel
    obtain ⟨a, h', L', e, s', hne, x, hx, hok, rfl⟩ := key h s.sep
    refine ⟨a, h', e, trivial, x, hx, ?_, ?_⟩
    · rw [hname]; exact hok
    · rw [hname]
      exact ⟨s', s.name, s.nodes, s.peers, s.counter, s.len, s.prlg, s.ids⟩

/-- The session that `session_create_responder` makes. -/
theorem Rep.createResp {pub : Bytes} (s : Rep h0 h dvp d X r istr prlg pub ns) (hpub : pub = (xbase d.spriv).toList)
    (w : World) (hw : w.d = d) (hprl : w.prologue = prlg) (hst : r.states = w.next)
    (epriv : B32) :
    ∃ a h', Mem.createResp dvp epriv h = .ok (a, h') ∧
      match createResponder w.device epriv with
      | (none, _) => a = 0 ∧ h' = h
      | (some sn, dv) => dv.statesCounter = w.next + 1 ∧ ∃ x : SnPtr, x.a = a ∧
          SnOk dvp d.spriv (x, ⟨sn, w.next, d.name, [], false⟩) ∧
          Rep h0 h' dvp d (snB (x, ⟨sn, w.next, d.name, [], false⟩) + X) { r with states := w.next + 1 } istr prlg
            pub ns := by
  subst hw hprl hpub
  have hdev : w.device.statesCounter = w.next := rfl
  unfold createResponder
  rw [hdev]
  by_cases hc : w.next = 4294967295
  · refine ⟨0, h, ?_, ?_⟩
    · unfold Mem.createResp
      rw [run_bind, s.device, C.ok_bind, hst, if_pos hc, run_pure]
    · rw [if_pos hc]; exact ⟨rfl, rfl⟩
  rw [if_neg hc]
  have key : Tri h0 (devAll dvp r istr w.d w.prologue (xbase w.d.spriv).toList ns + X) (Mem.createResp dvp epriv)
      (fun a L' => a ≠ 0 ∧ ∃ x : SnPtr, x.a = a ∧
        SnOk dvp w.d.spriv (x, ⟨{ role := .responder, pid := 0, st := .handshake (firstHS w.prologue w.d.spriv (xbase w.d.spriv) epriv
          (xbase w.d.spriv) zero32) }, w.next, w.d.name, [], false⟩) ∧
        L' = devAll dvp { r with states := w.next + 1 } istr w.d w.prologue (xbase w.d.spriv).toList ns +
          (snB (x, ⟨{ role := .responder, pid := 0, st := .handshake (firstHS w.prologue w.d.spriv (xbase w.d.spriv) epriv
            (xbase w.d.spriv) zero32) }, w.next, w.d.name, [], false⟩) + X)) := by
    unfold Mem.createResp
    have rp : ∀ h, Sep h0 h (devAll dvp r istr w.d w.prologue (xbase w.d.spriv).toList ns + X) →
        Rep h0 h dvp w.d X r istr w.prologue (xbase w.d.spriv).toList ns := fun h x =>
      ⟨x, s.name, s.nodes, s.peers, s.counter, s.len, s.prlg, s.ids⟩
    refine Tri.read (fun h x => (rp h x).device) ?_
    rw [hst, if_neg hc]
    simp only [copyKey, bind_assoc]
    have hd' : ∀ Y, devBlocks dvp r istr w.d w.prologue (xbase w.d.spriv).toList (headOf ns) ≤
        Y + (devAll dvp r istr w.d w.prologue (xbase w.d.spriv).toList ns + X) := fun Y =>
      le_trans (le_trans (le_trans (Multiset.le_add_right _ _) (Multiset.le_add_right _ _)) (Multiset.le_add_right _ X))
        (Multiset.le_add_left _ Y)
    refine Tri.read (fun h x => (rp h x).spriv) ?_
    refine Tri.alloc _ fun spriv _ => ?_
    refine Tri.read (fun h x => x.loadN (v := xbase w.d.spriv) (Multiset.mem_of_le (hd' _) (by simp [devBlocks]))) ?_
    refine Tri.alloc _ fun spub _ => ?_
    rw [← add_assoc]
    refine Tri.copyOf (q := istr) (t := w.d.name) (Multiset.mem_of_le (hd' _) (by simp [devBlocks])) s.name
      (le_trans (by
        unfold devBlocks
        exact le_trans (Multiset.le_add_left _ _) (le_trans (Multiset.le_add_right _ _) (le_trans (Multiset.le_add_right _ _)
          (le_trans (Multiset.le_add_right _ _) (le_trans (Multiset.le_add_right _ _) (Multiset.le_add_right _ _)))))) (hd' _))
      (fun istr' hi' => ?_)
    refine Tri.alloc _ fun info _ => ?_
    refine Tri.alloc _ fun pinfo _ => ?_
    refine Tri.store (b := .device r) _ (L1 := {(pinfo, .str 0)} + {(info, .str istr')} +
      strBlock istr' w.d.name + {(spub, .bytes (xbase w.d.spriv).toList)} + {(spriv, .bytes w.d.spriv.toList)} +
      ({(r.info, .str istr)} + strBlock istr w.d.name + {(r.sk, .bytes w.d.sk.toList)} +
        {(r.spriv, .bytes w.d.spriv.toList)} + {(r.spub, .bytes (xbase w.d.spriv).toList)} + prlgBlock r.prlg w.prologue +
        {(r.peers, .head (headOf ns))}) + cells ns + bodies ns + X)
      (by simp only [devAll, devBlocks]; abel) ?_
    refine Tri.perm (L1 := {(spriv, .bytes w.d.spriv.toList)} + {(spub, .bytes (xbase w.d.spriv).toList)} +
      ({(pinfo, .str 0)} + {(info, .str istr')} + strBlock istr' w.d.name +
      (devAll dvp { r with states := w.next + 1 } istr w.d w.prologue (xbase w.d.spriv).toList ns + X)))
      (by simp only [devAll, devBlocks]; abel) ?_
    refine Tri.bind (newState_tri (prlg := w.prologue) (rs := none) s.len ?_ epriv (by simp)) ?_
    · refine le_trans ?_ (Multiset.le_add_left _ _)
      refine le_trans ?_ (Multiset.le_add_right _ _)
      unfold devAll devBlocks
      exact le_trans (Multiset.le_add_left _ _) (le_trans (Multiset.le_add_right _ _) (le_trans (Multiset.le_add_right _ _)
        (Multiset.le_add_right _ _)))
    · rintro p L' ⟨e1, e2, e3, rfl⟩
      refine Tri.tail ?_
      refine Tri.alloc _ fun a ha => ?_
      refine Tri.pure ⟨ha, ⟨a, { role := .responder, st := .handshake p, id := w.next, info, spriv, spub, pid := 0, pinfo, dv := dvp },
        istr', 0, [], w.d.spriv, xbase w.d.spriv⟩, rfl, ⟨ha, ⟨e1, e2, e3, rfl, rfl, rfl⟩, rfl, rfl, rfl, rfl, hi',
        ⟨fun _ => rfl, by simp⟩,
        ⟨fun h => absurd rfl h, fun _ x hx => ⟨rfl, fun _ => rfl⟩, fun h => (nomatch h), fun ⟨_, ht⟩ => (nomatch ht)⟩, rfl⟩, ?_⟩
      simp only [snB, core, stBlocks, Option.map_none, Option.getD_none, strBlock, if_true]
      abel
  obtain ⟨a, h', L', e, s', hne, x, hx, hok, rfl⟩ := key h s.sep
  exact ⟨a, h', e, rfl, x, hx, hok, s', s.name, s.nodes, s.peers, s.counter, s.len, s.prlg, s.ids⟩

end


end Verif.Noise.Mem
