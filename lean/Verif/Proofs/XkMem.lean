import Verif.Model.XkMem
import Verif.Proofs.Devices
import Verif.Proofs.XkExample
import Verif.Proofs.AuthKeys

/-!
# Lemmas on the example of the Noise library on the heap
-/

set_option linter.unusedSectionVars false

namespace Verif.Noise.Example

open NoiseCrypto Mem
open Spec.Device Spec.SessionMem
open Props (Sendable Paired)

section
variable [Hashes] [NoiseCrypto] {h0 : Heap} {B F : Blocks} {dvp : ℕ}

/-- A call on a device or its sessions. -/
theorem devAt_step {w : World} {ps : List ℕ} (hd : DevAt B dvp w ps) (op : Spec.SessionMem.Op) {h : Heap}
    (hs : Sep h0 h (B + F)) :
    ∃ ps' h' B', stepAt dvp ps op h = .ok (((w.step op).1, ps'), h') ∧ DevAt B' dvp (w.step op).2 ps' ∧ Sep h0 h' (B' + F) := by
  obtain ⟨zs, hw⟩ := hd.rep hs
  obtain ⟨ps', h', zs', e, hw'⟩ := hw.step op
  obtain ⟨B', hB', hs'⟩ := hw'.devAt hd.ne
  exact ⟨ps', h', B', e, hB', hs'⟩

/-- A device with one open session. -/
def HasSn (B : Blocks) (dvp : ℕ) (d : Dev) (prlg : Bytes) (p : ℕ) (s : Session) : Prop :=
  ∃ n x, x.s = s ∧ DevAt B dvp ⟨d, prlg, n, [some x]⟩ [p]

/-- The blocks of a device with one session. -/
theorem HasSn.open {d : Dev} {prlg : Bytes} {p : ℕ} {s : Session} (hd : HasSn B dvp d prlg p s) {h : Heap}
    (hs : Sep h0 h (B + F)) :
    ∃ r istr ns z, z.1.a = p ∧ z.2.s = s ∧ SnOk dvp d.spriv z ∧
      Rep h0 h dvp d (snB z + F) r istr prlg (xbase d.spriv).toList ns ∧
      ∀ {h' : Heap} {F' : Blocks} (z' : SnPtr × Sn), z'.1.a = p → SnOk dvp d.spriv z' →
        Sep h0 h' (devBlocks dvp r istr d prlg (xbase d.spriv).toList (headOf ns) + cells ns + bodies ns + (snB z' + F')) →
        ∃ B', HasSn B' dvp d prlg p z'.2.s ∧ Sep h0 h' (B' + F') := by
  obtain ⟨n, x, rfl, hd⟩ := hd
  obtain ⟨zs, hw⟩ := hd.rep hs
  obtain ⟨h1, h2, h3, r, istr, ns, hr, hst⟩ := hw
  simp only at h1 h2 h3 hr hst
  match zs, h1, h2 with
  | [some z], h1, h2 =>
    simp only [List.map_cons, List.map_nil, Option.map_some, List.cons.injEq, Option.some.injEq, and_true] at h1
    simp only [List.map_cons, List.map_nil, ptrOf, Option.elim_some, List.cons.injEq, and_true] at h2
    subst h1 h2
    have hal : ∀ z : SnPtr × Sn, allB [some z] = snB z := fun z => by simp [allB]
    rw [hal] at hr
    refine ⟨r, istr, ns, z, rfl, rfl, h3 z (by simp), hr, fun z' hz hok hs' => ?_⟩
    have w' : WRep h0 _ _ dvp ⟨d, prlg, n, [some z'.2]⟩ [z.1.a] [some z'] :=
      ⟨rfl, by simp [ptrOf, hz], fun y hy => by simp at hy; rw [hy]; exact hok, r, istr, ns,
        by rw [hal]; exact hr.with hs', hst⟩
    obtain ⟨B', hB', hs''⟩ := w'.devAt hd.ne
    exact ⟨B', ⟨n, z'.2, rfl, hB'⟩, hs''⟩

theorem writeMsg_tri {d : Dev} {prlg : Bytes} {p conf : ℕ} {s s' : Session} {msg m : Bytes} (hd : HasSn B dvp d prlg p s)
    (hw : sessionWrite (pack conf msg) s = (.success, some m, s')) :
    Tri h0 (B + F) (writeMsg p conf msg) (fun o L' =>
      ∃ B' c, o = some (m.length, c) ∧ HasSn B' dvp d prlg p s' ∧ L' = B' + ({(c, .bytes m)} + F)) := by
  intro h hs
  obtain ⟨r, istr, ns, z, rfl, rfl, hok, hr, close⟩ := hd.open hs
  have hsep : Sep h0 h (core z.1.a z.1.r z.1.spriv z.1.spub z.2.s.st + ({(z.1.r.pinfo, .str z.1.pstr)} +
      (strBlock z.1.pstr z.1.pname + ({(z.1.r.info, .str z.1.istr)} + strBlock z.1.istr z.2.name)) +
      (devBlocks dvp r istr d prlg (xbase d.spriv).toList (headOf ns) + cells ns + bodies ns + F))) := by
    convert hr.sep using 1
    rw [snB]
    abel
  have tri : ∀ L, Tri h0 (core z.1.a z.1.r z.1.spriv z.1.spub z.2.s.st + L) (writeMsg z.1.a conf msg) (fun o L' =>
      ∃ st' c, StOk { z.1.r with st := st' } z.1.spriv z.1.spub z.2.heard s'.st ∧ s'.role = z.2.s.role ∧ s'.pid = z.2.s.pid ∧
        o = some (m.length, c) ∧ L' = core z.1.a { z.1.r with st := st' } z.1.spriv z.1.spub s'.st + ({(c, .bytes m)} + L)) := by
    intro L
    unfold writeMsg
    refine packMsg_tri fun emp mp hm => ?_
    refine Tri.perm (L1 := core z.1.a z.1.r z.1.spriv z.1.spub z.2.s.st +
      ({(emp, .encap (.conf conf) msg.length mp)} + (prlgBlock mp msg + L))) (by abel) ?_
    refine Tri.bind (sessionWriteAt_tri (conf := conf) (msg := msg) (mp := mp) hok.st hok.role (by simp)
      (le_trans (Multiset.le_add_right _ _) (Multiset.le_add_left _ _))) ?_
    rintro ⟨rc, n, out⟩ L' ⟨st', g1, g2, g3, g4, hx⟩
    rw [hw] at g1 g2 g3 g4 hx
    simp only at g1 g2 g3 g4 hx
    subst g4
    rcases hx with ⟨hs, b, hb, hn, rfl⟩ | ⟨hs, hb, rfl⟩
    · injection hb with hb
      subst hb
      simp only [hs, if_true]
      refine encapFree_tri hm (L := core z.1.a { z.1.r with st := st' } z.1.spriv z.1.spub s'.st +
        ({(out, .bytes m)} + L)) (by abel) ?_
      exact Tri.pure ⟨st', out, g1, g2, g3, by rw [hn], rfl⟩
    · cases hb
  obtain ⟨o, h', L', e, sp, st', c, g1, g2, g3, g4, rfl⟩ := tri _ h hsep
  obtain ⟨B', hB', hs'⟩ := close (h' := h') (F' := {(c, .bytes m)} + F)
    (({ z.1 with r := { z.1.r with st := st' } } : SnPtr), ({ z.2 with s := s' } : Sn)) rfl
    ⟨hok.ne, g1, hok.role.trans g2.symm, hok.pid.trans g3.symm, hok.id, hok.dv, hok.istr, hok.pstr, by
      have := hok.peer.write (pack conf msg) (by rw [hw]; exact g2) (by rw [hw]; exact g3)
      rw [hw] at this
      exact this, hok.spriv⟩ (by
        convert sp using 1
        simp only [snB]
        abel)
  exact ⟨o, h', _, e, hs', B', c, g4, hB', rfl⟩

theorem readMsg_tri {d : Dev} {prlg : Bytes} {p c : ℕ} {s : Session} {input : Bytes} {g : RCode × Option Encap × Session}
    (hd : HasSn B dvp d prlg p s) (hg : sessionRead (d.peers.map fun e => ⟨e.id, e.key⟩) s input = g) :
    Tri h0 (B + ({(c, .bytes input)} + F)) (readMsg p (input.length, c)) (fun o L' =>
      ∃ B', HasSn B' dvp d prlg p g.2.2 ∧
        ((g.1.isSuccess = true ∧ ∃ em emp mp, g.2.1 = some em ∧ o = some emp ∧ (em.msg = [] → mp = 0) ∧
          L' = {(emp, .encap em.level em.msg.length mp)} + (prlgBlock mp em.msg + (B' + ({(c, .bytes input)} + F)))) ∨
        (g.1.isSuccess = false ∧ o = none ∧ L' = B' + ({(c, .bytes input)} + F)))) := by
  intro h hs
  obtain ⟨r, istr, ns, z, rfl, rfl, hok, hr, close⟩ := hd.open hs
  have hsep : Sep h0 h (core z.1.a z.1.r z.1.spriv z.1.spub z.2.s.st + ({(z.1.r.pinfo, .str z.1.pstr)} +
      (strBlock z.1.pstr z.1.pname + (devBlocks dvp r istr d prlg (xbase d.spriv).toList (headOf ns) +
        cells ns + bodies ns + (({(z.1.r.info, .str z.1.istr)} + strBlock z.1.istr z.2.name) + ({(c, .bytes input)} + F)))))) := by
    convert hr.sep using 1
    rw [snB]
    abel
  have hl : loadN c input.length h = .ok (input, h) := hs.loadAll (b := input) (by simp) rfl
  obtain ⟨⟨rc, emp⟩, h', L', e, sp, st', pstr', pname', g1, g2, g3, g4, g5, hx⟩ := sessionReadAt_tri (d := d) (r := r)
    (istr := istr) (prlg := prlg) (pub := (xbase d.spriv).toList) (ns := ns) hok.st hok.role hok.pid hok.pstr
    hok.peer hok.dv ⟨Multiset.le_add_right _ _, hr.name, hr.nodes, hr.peers, hr.ids⟩ input h hsep
  rw [hg] at g1 g2 g4 g5 hx
  simp only at g5
  subst g5
  have hrun : readMsg z.1.a (input.length, c) h = .ok (if g.1.isSuccess then some emp else none, h') := by
    unfold readMsg
    rw [run_bind, hl, C.ok_bind, run_bind, e, C.ok_bind, run_pure]
  have hok' : SnOk dvp d.spriv (({ z.1 with r := { z.1.r with pid := g.2.2.pid, st := st' }, pstr := pstr', pname := pname' } : SnPtr),
      (⟨g.2.2, z.2.id, z.2.name, if z.2.s.pid = 0 then nameOf d g.2.2.pid else z.2.peer, heardAfter z.2.heard z.2.s g.1⟩ : Sn)) :=
    ⟨hok.ne, g1, hok.role.trans g2.symm, rfl, hok.id, hok.dv, hok.istr, g3, g4, hok.spriv⟩
  rcases hx with ⟨hsu, em, mp, he, hmp, rfl⟩ | ⟨hsu, he, rfl⟩
  · obtain ⟨B', hB', hs'⟩ := close (h' := h') (F' := {(emp, .encap em.level em.msg.length mp)} + (prlgBlock mp em.msg +
      ({(c, .bytes input)} + F))) _ (by rfl) hok' (by
        convert sp using 1
        simp only [snB]
        abel)
    refine ⟨_, h', _, hrun, ?_, B', hB', .inl ⟨hsu, em, emp, mp, he, by rw [if_pos hsu], hmp, rfl⟩⟩
    convert hs' using 1
    abel
  · obtain ⟨B', hB', hs'⟩ := close (h' := h') (F' := {(c, .bytes input)} + F) _ (by rfl) hok' (by
        convert sp using 1
        simp only [snB]
        abel)
    exact ⟨_, h', _, hrun, hs', B', hB', .inr ⟨hsu, by rw [hsu]; rfl, rfl⟩⟩

theorem unpackAt_tri {auth emp mp : ℕ} {em : Encap} {t : Bytes} {L : Blocks} (hu : unpack auth em = some t)
    (hmp : em.msg = [] → mp = 0) :
    Tri h0 ({(emp, .encap em.level em.msg.length mp)} + (prlgBlock mp em.msg + L)) (unpackAt auth emp) (fun o L' =>
      ∃ q, (t = [] → q = 0) ∧ o = some (t.length, q) ∧
        L' = prlgBlock q t + ({(emp, .encap em.level em.msg.length mp)} + (prlgBlock mp em.msg + L))) := by
  have hu' : unpack auth em = if (if em.msg.length = 0 then true else authOk auth em.level) = true then some em.msg
      else none := by
    unfold unpack authOk; rfl
  rw [hu'] at hu
  unfold unpackAt unpackMsg
  simp only [bind_assoc]
  refine Tri.read (fun h x => x.loadEncap (l := em.level) (n := em.msg.length) (p := mp) (by simp)) ?_
  simp only
  by_cases hc : (if em.msg.length = 0 then true else authOk auth em.level) = true
  · rw [if_pos hc] at hu
    injection hu with hu
    subst hu
    rw [if_pos hc]
    by_cases hl : em.msg.length > 0
    · have hne : em.msg ≠ [] := List.length_pos_iff.mp hl
      simp only [hl, if_true, bind_assoc, pure_bind]
      refine Tri.read (fun h x => x.loadAll (b := em.msg) (by simp [prlgBlock, hne]) rfl) ?_
      refine Tri.alloc _ fun m _ => ?_
      exact Tri.pure ⟨m, fun h => absurd h hne, rfl, by simp [prlgBlock, hne]⟩
    · have hne : em.msg = [] := by
        rw [← List.length_eq_zero_iff]; omega
      simp only [hl, if_false, pure_bind]
      exact Tri.pure ⟨0, fun _ => rfl, rfl, by simp [prlgBlock, hne]⟩
  · rw [if_neg hc] at hu
    cases hu

theorem freeLen_tri {β : Type} {R : β → Blocks → Prop} {p : ℕ} {b : Bytes} {L L1 : Blocks} {f : Unit → M β}
    (e : L = prlgBlock p b + L1) (k : Tri h0 L1 (f ()) R) : Tri h0 L (freeLen b.length p >>= f) R := by
  subst e
  unfold freeLen
  by_cases hb : b = []
  · subst hb
    simpa [prlgBlock] using k
  · rw [if_pos (List.length_pos_iff.mpr hb)]
    refine Tri.free (b := .bytes b) (L1 := L1) (by simp [prlgBlock, hb]) k

/-- The key of a peer that is found by its number. -/
theorem lookup_tri {β : Type} {R : β → Blocks → Prop} {d : Dev} {prlg : Bytes} {p : ℕ} {s : Session}
    (hd : HasSn B dvp d prlg p s) {e : Entry} (he : d.peers.find? (fun e => e.id = s.pid) = some e) {f : Bytes → M β}
    (k : Tri h0 (B + F) (f e.key.toList) R) :
    Tri h0 (B + F) (getPeerId p >>= fun pid => lookupById dvp pid >>= fun pp => peerGetStatic pp >>= f) R := by
  intro h hs
  obtain ⟨r, istr, ns, z, rfl, rfl, hok, hr, -⟩ := hd.open hs
  have e1 : getPeerId z.1.a h = .ok (z.2.s.pid, h) := by
    unfold getPeerId
    rw [run_bind, hr.sep.loadSession (x := z.1.r) (by simp [snB, core]), C.ok_bind, run_pure, hok.pid]
  have e2 := hr.lookupById z.2.s.pid
  rw [hr.peers, find_entry] at he
  obtain ⟨n, hn, rfl⟩ := Option.map_eq_some_iff.mp he
  have hn' : (ns.find? fun n => decide (n.e.id = z.2.s.pid)) = some n := hn
  rw [hn'] at e2
  simp only [Option.map_some, Option.getD_some] at e2
  have hb := hr.body_le (List.mem_of_find?_eq_some hn)
  have e3 : peerGetStatic n.peer h = .ok (n.e.key.toList, h) := by
    unfold peerGetStatic
    rw [run_bind, hr.sep.loadPeer (Multiset.mem_of_le hb (peer_mem_body n)), C.ok_bind]
    exact hr.sep.loadN (Multiset.mem_of_le hb (key_mem_body n))
  obtain ⟨b, h', L', e, s', q⟩ := k h hs
  exact ⟨b, h', L', by rw [run_bind, e1, C.ok_bind, run_bind, e2, C.ok_bind, run_bind, e3, C.ok_bind, e], s', q⟩

/-- A device whose session is closed. -/
def NoSn (B : Blocks) (dvp : ℕ) (d : Dev) (prlg : Bytes) : Prop := ∃ n, DevAt B dvp ⟨d, prlg, n, [none]⟩ [0]

theorem sessionFree_tri {β : Type} {R : β → Blocks → Prop} {d : Dev} {prlg : Bytes} {p : ℕ} {s : Session}
    (hd : HasSn B dvp d prlg p s) {f : Unit → M β} (k : ∀ B', NoSn B' dvp d prlg → Tri h0 (B' + F) (f ()) R) :
    Tri h0 (B + F) (sessionFree p >>= f) R := by
  intro h hs
  obtain ⟨n, x, -, hd'⟩ := hd
  obtain ⟨_, _, _, z, hz, -, hok, -⟩ := HasSn.open ⟨n, x, rfl, hd'⟩ hs
  have hp : p ≠ 0 := hz ▸ hok.ne
  obtain ⟨ps', h1, B', e, hB', hs'⟩ := devAt_step hd' (.close 0) hs
  have ef : ∃ u, sessionFree p h = .ok (u, h1) ∧ ps' = [0] := by
    simp only [stepAt, List.getD_cons_zero, hp, if_false, run_bind] at e
    obtain ⟨⟨u, h2⟩, e1, e2⟩ := C.bind_eq_ok.mp e
    simp only [run_pure, C.ok.injEq, Prod.mk.injEq] at e2
    obtain ⟨⟨-, e3⟩, rfl⟩ := e2
    exact ⟨u, e1, e3.symm⟩
  obtain ⟨u, ef, rfl⟩ := ef
  obtain ⟨b, h', L', e', s', q⟩ := k B' ⟨n, hB'⟩ h1 hs'
  exact ⟨b, h', L', by rw [run_bind, ef, C.ok_bind]; exact e', s', q⟩

theorem deviceFree_tri {β : Type} {R : β → Blocks → Prop} {d : Dev} {prlg : Bytes} (hd : NoSn B dvp d prlg) {f : Unit → M β}
    (k : ∀ B', Multiset.card B' = 1 + peerBlocks d.peers → Tri h0 (B' + F) (f ()) R) :
    Tri h0 (B + F) (deviceFree dvp >>= f) R := by
  intro h hs
  obtain ⟨n, hd⟩ := hd
  obtain ⟨zs, hw⟩ := hd.rep hs
  obtain ⟨h1, h2, h3, r, istr, ns, hr, hst⟩ := hw
  have hz : allB zs = 0 := by
    refine allB_none fun o ho => ?_
    have : o.map Prod.snd ∈ ([none] : List (Option Sn)) := by
      have := List.mem_map_of_mem (f := Option.map Prod.snd) ho
      rwa [← h1] at this
    simpa using this
  rw [hz, zero_add] at hr
  obtain ⟨h4, e4, s4, -⟩ := hr.deviceFree
  obtain ⟨b, h', L', e', s', q⟩ := k ({(r.sk, .bytes d.sk.toList)} + bodies ns) (by
    simp only [Multiset.card_add, Multiset.card_singleton, card_bodies, show d.peers = _ from hr.peers]) h4 s4
  exact ⟨b, h', L', by rw [run_bind, e4, C.ok_bind]; exact e', s', q⟩

/-- No session reads a message without bytes. -/
theorem read_nil (peers : List Peer) (s : Session) : (sessionRead peers s []).1.isSuccess = false := by
  obtain ⟨role, pid, st⟩ := s
  unfold sessionRead
  cases st with
  | transport t => simp [RCode.isSuccess]
  | handshake x =>
    simp only
    split
    · rfl
    · split
      · have : payloadLen x.step 0 = none := by
          unfold payloadLen
          repeat' split
          all_goals simp_all
        simp [this, RCode.isSuccess]
      · rfl

/-- A message from one side to the other. -/
theorem pass_tri {R : Res → Blocks → Prop} {BA BB : Blocks} {da db pa pb conf : ℕ} {dA dB : Dev} {prlg : Bytes}
    {s s' t t' : Session} {msg m : Bytes} {em : Encap} (hA : HasSn BA da dA prlg pa s) (hB : HasSn BB db dB prlg pb t)
    (hw : sessionWrite (pack conf msg) s = (.success, some m, s'))
    (hr : sessionRead (dB.peers.map fun e => ⟨e.id, e.key⟩) t m = (.success, some em, t')) {e1 e2 : String} {r : Res}
    {K : ℕ × ℕ → ℕ → M Res}
    (k : ∀ BA' BB' c emp mp, HasSn BA' da dA prlg pa s' → HasSn BB' db dB prlg pb t' → (em.msg = [] → mp = 0) →
      Tri h0 ({(emp, .encap em.level em.msg.length mp)} + (prlgBlock mp em.msg + (BB' + ({(c, .bytes m)} + (BA' + F)))))
        (K (m.length, c) emp) R) :
    Tri h0 (BA + (BB + F)) (writeMsg pa conf msg >>= fun o => orReturnAt o e1 r fun c =>
      readMsg pb c >>= fun o => orReturnAt o e2 r (K c)) R := by
  refine Tri.bind (writeMsg_tri hA hw) ?_
  rintro _ _ ⟨BA', c, rfl, hA', rfl⟩
  refine Tri.perm (L1 := BB + ({(c, .bytes m)} + (BA' + F))) (by abel) ?_
  refine Tri.bind (readMsg_tri hB hr) ?_
  rintro _ _ ⟨BB', hB', ⟨-, em', emp, mp, he, rfl, hmp, rfl⟩ | ⟨hf, -⟩⟩
  · injection he with he
    subst he
    exact k BA' BB' c emp mp hA' hB' hmp
  · cases hf

/-- The message is unpacked, and the two messages are released. -/
theorem unpacked_tri {R : Res → Blocks → Prop} {auth emp mp c : ℕ} {em : Encap} {t m : Bytes} {L L0 : Blocks}
    (hu : unpack auth em = some t) (hmp : em.msg = [] → mp = 0) (hm : m ≠ []) {e : String} {r : Res} {K : ℕ × ℕ → M Res}
    (hL : L0 = {(emp, .encap em.level em.msg.length mp)} + (prlgBlock mp em.msg + ({(c, .bytes m)} + L)))
    (k : ∀ q, (t = [] → q = 0) → Tri h0 (prlgBlock q t + L) (K (t.length, q)) R) :
    Tri h0 L0 (unpackAt auth emp >>= fun o => orReturnAt o e r fun p => encapFree emp >>= fun _ =>
      freeLen m.length c >>= fun _ => K p) R := by
  subst hL
  refine Tri.bind (unpackAt_tri hu hmp) ?_
  rintro _ _ ⟨q, hq, rfl, rfl⟩
  refine encapFree_tri hmp (L := prlgBlock q t + ({(c, .bytes m)} + L)) (by abel) ?_
  refine freeLen_tri (b := m) (p := c) (L1 := prlgBlock q t + L) (by simp only [prlgBlock, hm, if_false]; abel) ?_
  exact k q hq

theorem createInit_tri {d : Dev} {prlg : Bytes} {n : UInt32} {pid : UInt32} {ea : B32} {s : Session}
    (hd : DevAt B dvp ⟨d, prlg, n, []⟩ []) (hc : (createInitiator (World.device ⟨d, prlg, n, []⟩) pid ea).1 = some s) :
    Tri h0 (B + F) (createInit dvp pid ea) (fun p L' => p ≠ 0 ∧ ∃ B', HasSn B' dvp d prlg p s ∧ L' = B' + F) := by
  intro h hs
  obtain ⟨ps', h1, B', e, hB', hs'⟩ := devAt_step hd (.openTo pid ea) hs
  simp only [World.step, World.push, hc, List.nil_append] at e hB'
  simp only [stepAt, run_bind] at e
  obtain ⟨⟨p, h2⟩, e1, e2⟩ := C.bind_eq_ok.mp e
  simp only [run_pure, C.ok.injEq, Prod.mk.injEq, Spec.SessionMem.Out.opened.injEq, List.nil_append] at e2
  obtain ⟨⟨e3, rfl⟩, rfl⟩ := e2
  exact ⟨p, h2, _, e1, hs', by simpa using e3, B', ⟨_, _, rfl, hB'⟩, rfl⟩

theorem createResp_tri {d : Dev} {prlg : Bytes} {n : UInt32} {eb : B32} {s : Session}
    (hd : DevAt B dvp ⟨d, prlg, n, []⟩ []) (hc : (createResponder (World.device ⟨d, prlg, n, []⟩) eb).1 = some s) :
    Tri h0 (B + F) (createResp dvp eb) (fun p L' => p ≠ 0 ∧ ∃ B', HasSn B' dvp d prlg p s ∧ L' = B' + F) := by
  intro h hs
  obtain ⟨ps', h1, B', e, hB', hs'⟩ := devAt_step hd (.accept eb) hs
  simp only [World.step, World.push, hc, List.nil_append] at e hB'
  simp only [stepAt, run_bind] at e
  obtain ⟨⟨p, h2⟩, e1, e2⟩ := C.bind_eq_ok.mp e
  simp only [run_pure, C.ok.injEq, Prod.mk.injEq, Spec.SessionMem.Out.opened.injEq, List.nil_append] at e2
  obtain ⟨⟨e3, rfl⟩, rfl⟩ := e2
  exact ⟨p, h2, _, e1, hs', by simpa using e3, B', ⟨_, _, rfl, hB'⟩, rfl⟩

/-- The whole conversation, when all messages are accepted. -/
theorem talkAt_accepted {BA BB : Blocks} {da db sa sb : ℕ} {dA dB : Dev} {prlg : Bytes}
    {i0 i1 i2 i3 i4 r0 r1 r2 r3 r4 : Session} {m1 m2 m3 m4 : Bytes} {l1 l2 : ℕ} (hA : HasSn BA da dA prlg sa i0)
    (hB : HasSn BB db dB prlg sb r0)
    (a3 : sessionWrite (pack 0 []) i0 = (.success, some m1, i1))
    (a4 : sessionRead (dB.peers.map fun e => ⟨e.id, e.key⟩) r0 m1 = (.success, some ⟨.auth l1, []⟩, r1))
    (a5 : sessionWrite (pack 0 []) r1 = (.success, some m2, r2))
    (a6 : sessionRead (dA.peers.map fun e => ⟨e.id, e.key⟩) i1 m2 = (.success, some ⟨.auth l2, []⟩, i2))
    (a7 : sessionWrite (pack 5 (helloBob ++ [0])) i2 = (.success, some m3, i3))
    (a8 : sessionRead (dB.peers.map fun e => ⟨e.id, e.key⟩) r2 m3 = (.success, some ⟨.auth 2, helloBob ++ [0]⟩, r3))
    {e : Entry} (he : dB.peers.find? (fun e => e.id = r3.pid) = some e)
    (b1 : sessionWrite (pack 5 (helloAlice.take 11)) r3 = (.success, some m4, r4))
    (b2 : sessionRead (dA.peers.map fun e => ⟨e.id, e.key⟩) i3 m4 = (.success, some ⟨.auth 2, helloAlice.take 11⟩, i4)) :
    Tri h0 (BA + (BB + 0)) (talkAt da db sa sb) (fun r L' =>
      r = ⟨0, none, some e.key, some helloBob, some (helloAlice.take 11)⟩ ∧
      Multiset.card L' = 2 + peerBlocks dA.peers + peerBlocks dB.peers) := by
  have ne : ∀ {P : List Peer} {s s' : Session} {m : Bytes} {x : Encap}, sessionRead P s m = (.success, some x, s') → m ≠ [] := by
    rintro P s s' m x h rfl
    have := read_nil P s
    rw [h] at this
    cases this
  unfold talkAt
  simp only []
  refine pass_tri hA hB a3 a4 fun BA1 BB1 c emp mp hA1 hB1 hmp => ?_
  refine unpacked_tri (t := []) (L := BA1 + (BB1 + 0)) rfl hmp (ne a4) (by abel) fun q hq => ?_
  refine freeLen_tri (b := []) (p := q) rfl ?_
  refine Tri.perm (L1 := BB1 + (BA1 + 0)) (by abel) ?_
  refine pass_tri hB1 hA1 a5 a6 fun BB2 BA2 c emp mp hB2 hA2 hmp => ?_
  refine unpacked_tri (t := []) (L := BA2 + (BB2 + 0)) rfl hmp (ne a6) (by abel) fun q hq => ?_
  refine freeLen_tri (b := []) (p := q) rfl ?_
  refine Tri.read (a := helloBob ++ [0]) (fun h _ => rfl) ?_
  refine pass_tri hA2 hB2 a7 a8 fun BA3 BB3 c emp mp hA3 hB3 hmp => ?_
  refine Tri.perm (L1 := BB3 + ({(emp, .encap (.auth 2) (helloBob ++ [0]).length mp)} + (prlgBlock mp (helloBob ++ [0]) +
    ({(c, .bytes m3)} + (BA3 + 0))))) (by abel) ?_
  refine lookup_tri hB3 he ?_
  refine unpacked_tri (t := helloBob ++ [0]) (em := ⟨.auth 2, helloBob ++ [0]⟩) (L := BB3 + (BA3 + 0)) (by rfl) hmp (ne a8)
    (by abel) fun q hq => ?_
  refine Tri.read (a := helloBob) (fun h x => ?_) ?_
  · unfold printAt
    rw [run_bind, x.loadBytes (b := helloBob ++ [0]) (by simp [prlgBlock, helloBob])]
    rfl
  refine freeLen_tri (b := helloBob ++ [0]) (p := q) rfl ?_
  refine Tri.read (a := helloAlice.take 11) (fun h _ => rfl) ?_
  refine pass_tri hB3 hA3 b1 b2 fun BB4 BA4 c emp mp hB4 hA4 hmp => ?_
  refine unpacked_tri (t := helloAlice.take 11) (em := ⟨.auth 2, helloAlice.take 11⟩) (L := BA4 + (BB4 + 0)) (by rfl) hmp (ne b2)
    (by abel) fun q hq => ?_
  refine Tri.read (a := helloAlice.take 11) (fun h x => x.loadBuf (Multiset.le_add_right _ _) rfl) ?_
  refine freeLen_tri (b := helloAlice.take 11) (p := q) rfl ?_
  refine sessionFree_tri hA4 fun BA5 hA5 => ?_
  refine Tri.perm (L1 := BB4 + (BA5 + 0)) (by abel) ?_
  refine sessionFree_tri hB4 fun BB5 hB5 => ?_
  refine Tri.perm (L1 := BA5 + (BB5 + 0)) (by abel) ?_
  refine deviceFree_tri hA5 fun BA6 cA => ?_
  refine Tri.perm (L1 := BB5 + (BA6 + 0)) (by abel) ?_
  refine deviceFree_tri hB5 fun BB6 cB => ?_
  refine Tri.pure ⟨by simp [toB32_toList], ?_⟩
  simp only [Multiset.card_add, cA, cB, Multiset.card_zero]
  omega

/-- The conversation, when the third message is refused. -/
theorem talkAt_refused {BA BB : Blocks} {da db sa sb : ℕ} {dA dB : Dev} {prlg : Bytes}
    {i0 i1 i2 i3 r0 r1 r2 : Session} {m1 m2 m3 : Bytes} {l1 l2 : ℕ} (hA : HasSn BA da dA prlg sa i0)
    (hB : HasSn BB db dB prlg sb r0)
    (a3 : sessionWrite (pack 0 []) i0 = (.success, some m1, i1))
    (a4 : sessionRead (dB.peers.map fun e => ⟨e.id, e.key⟩) r0 m1 = (.success, some ⟨.auth l1, []⟩, r1))
    (a5 : sessionWrite (pack 0 []) r1 = (.success, some m2, r2))
    (a6 : sessionRead (dA.peers.map fun e => ⟨e.id, e.key⟩) i1 m2 = (.success, some ⟨.auth l2, []⟩, i2))
    (a7 : sessionWrite (pack 5 (helloBob ++ [0])) i2 = (.success, some m3, i3))
    (a8 : receive (dB.peers.map fun e => ⟨e.id, e.key⟩) r2 m3 = none) :
    Tri h0 (BA + (BB + 0)) (talkAt da db sa sb) (fun r L' =>
      r = ⟨1, some "Receive message 2", none, none, none⟩ ∧
      ∃ BA' BB' c r3, HasSn BA' da dA prlg sa i3 ∧ HasSn BB' db dB prlg sb r3 ∧ L' = BA' + (BB' + {(c, .bytes m3)})) := by
  have ne : ∀ {P : List Peer} {s s' : Session} {m : Bytes} {x : Encap}, sessionRead P s m = (.success, some x, s') → m ≠ [] := by
    rintro P s s' m x h rfl
    have := read_nil P s
    rw [h] at this
    cases this
  unfold talkAt
  simp only []
  refine pass_tri hA hB a3 a4 fun BA1 BB1 c emp mp hA1 hB1 hmp => ?_
  refine unpacked_tri (t := []) (L := BA1 + (BB1 + 0)) rfl hmp (ne a4) (by abel) fun q hq => ?_
  refine freeLen_tri (b := []) (p := q) rfl ?_
  refine Tri.perm (L1 := BB1 + (BA1 + 0)) (by abel) ?_
  refine pass_tri hB1 hA1 a5 a6 fun BB2 BA2 c emp mp hB2 hA2 hmp => ?_
  refine unpacked_tri (t := []) (L := BA2 + (BB2 + 0)) rfl hmp (ne a6) (by abel) fun q hq => ?_
  refine freeLen_tri (b := []) (p := q) rfl ?_
  refine Tri.read (a := helloBob ++ [0]) (fun h _ => rfl) ?_
  refine Tri.bind (writeMsg_tri hA2 a7) ?_
  rintro _ _ ⟨BA3, c, rfl, hA3, rfl⟩
  refine Tri.perm (L1 := BB2 + ({(c, .bytes m3)} + (BA3 + 0))) (by abel) ?_
  refine Tri.bind (readMsg_tri hB2 rfl) ?_
  rintro _ _ ⟨BB3, hB3, ⟨hsu, em, emp, mp, hem, -⟩ | ⟨-, rfl, rfl⟩⟩
  · exfalso
    rw [receive] at a8
    generalize sessionRead (dB.peers.map fun e => ⟨e.id, e.key⟩) r2 m3 = g at a8 hsu hem
    obtain ⟨_ | _ | _, o, _⟩ := g
    · obtain rfl : o = some em := hem
      cases a8
    · cases hsu
    · cases hsu
  · exact Tri.pure ⟨rfl, BA3, BB3, c, _, hA3, hB3, by abel⟩

/-! ### `main` -/

/-- Alice's device once Bob is registered. -/
def alice (a b : B32) : Dev := ((fresh (some nameAlice) srlzKey a).add (some nameBob) (xbase b)).2

/-- `main` after the devices are set up. -/
def sessionsAt (da db : ℕ) (bobId : UInt32) (ea eb : B32) : M Res := do
  let sa ← createInit da bobId ea
  if sa = 0 then pure { code := 1, error := some "Alice session creation" }
  else do
    let sb ← createResp db eb
    if sb = 0 then pure { code := 1, error := some "Bob session creation" }
    else talkAt da db sa sb

/-- The two ways the run ends once the file is loaded. -/
def Ends (a b : B32) (dB : Dev) (r : Res) (L' : Blocks) : Prop :=
  (xbase a ∈ dB.peers.map (·.key) ∧ r = ⟨0, none, some (xbase a), some helloBob, some (helloAlice.take 11)⟩ ∧
    Multiset.card L' = 6 + peerBlocks dB.peers) ∨
  (xbase a ∉ dB.peers.map (·.key) ∧ r = ⟨1, some "Receive message 2", none, none, none⟩ ∧
    ∃ BA' BB' da db sa sb c m i3 r3, HasSn BA' da (alice a b) prologue sa i3 ∧ HasSn BB' db dB prologue sb r3 ∧
      L' = BA' + (BB' + {(c, .bytes m)}))

theorem sessionsAt_tri {a b ea eb : B32} {dB : Dev} {BA BB : Blocks} {da db : ℕ} (g : Good b (World.device ⟨dB, prologue, 1, []⟩))
    (hA : DevAt BA da ⟨alice a b, prologue, 1, []⟩ []) (hB : DevAt BB db ⟨dB, prologue, 1, []⟩ []) :
    Tri h0 (BA + (BB + 0)) (sessionsAt da db 1 ea eb) (Ends a b dB) := by
  have hdA : World.device ⟨alice a b, prologue, 1, []⟩ = ⟨a, xbase a, prologue, 1, [⟨1, xbase b⟩], 2⟩ := rfl
  have hpA : ((alice a b).peers.map fun e => (⟨e.id, e.key⟩ : Peer)) = [⟨1, xbase b⟩] := rfl
  have hcA : peerBlocks (alice a b).peers = 4 := by
    simp [alice, Dev.add, fresh, peerBlocks, text, nameBob]
  set I : Device := ⟨a, xbase a, prologue, 1, [⟨1, xbase b⟩], 2⟩ with hId
  set dv : Device := World.device ⟨dB, prologue, 1, []⟩ with hdv
  have hps : dv.peers = dB.peers.map fun e => ⟨e.id, e.key⟩ := rfl
  have hkeys : dv.peers.map (·.s) = dB.peers.map (·.key) := by rw [hps, List.map_map]; rfl
  have hem : ∀ n, n < 3 → Sendable n (pack 0 []) := fun n hn => ⟨by simp [hn, pack], Or.inl rfl⟩
  have hm3 : Sendable 2 (pack 5 (helloBob ++ [0])) := ⟨by decide, Or.inr ⟨5, rfl, by decide⟩⟩
  have start : ∀ {i0 r0 : Session}, (createInitiator I 1 ea).1 = some i0 → (createResponder dv eb).1 = some r0 →
      (∀ BA' BB' sa sb, HasSn BA' da (alice a b) prologue sa i0 → HasSn BB' db dB prologue sb r0 →
        Tri h0 (BA' + (BB' + 0)) (talkAt da db sa sb) (Ends a b dB)) →
      Tri h0 (BA + (BB + 0)) (sessionsAt da db 1 ea eb) (Ends a b dB) := by
    intro i0 r0 a1 a2 k
    unfold sessionsAt
    refine Tri.bind (createInit_tri hA (by rw [hdA]; exact a1)) ?_
    rintro sa _ ⟨hsa, BA', hA', rfl⟩
    simp only [hsa, if_false]
    refine Tri.perm (L1 := BB + (BA' + 0)) (by abel) ?_
    refine Tri.bind (createResp_tri hB a2) ?_
    rintro sb _ ⟨hsb, BB', hB', rfl⟩
    simp only [hsb, if_false]
    exact Tri.perm (L1 := BA' + (BB' + 0)) (by abel) (k BA' BB' sa sb hA' hB')
  by_cases hm : xbase a ∈ dB.peers.map (·.key)
  · rw [← hkeys] at hm
    obtain ⟨p, hp, hpk⟩ := List.mem_map.mp hm
    obtain ⟨peer, hpeer⟩ := Option.isSome_iff_exists.mp (show (dv.peers.find? fun p => p.s == I.spub).isSome from by
      rw [List.find?_isSome]
      exact ⟨p, hp, by simp [hId, hpk]⟩)
    have hmem := List.mem_of_find?_eq_some hpeer
    have hpr : Paired I dv 1 peer := ⟨rfl, g.spub.trans (by rw [g.spriv]), g.prologue.symm, show (1 : UInt32) ≠ _ by decide,
      by rw [g.states]; decide, by decide, ⟨⟨1, xbase b⟩, rfl, g.spub.symm⟩, hpeer⟩
    obtain ⟨i0, r0, i1, r1, r2, i2, i3, r3, m1, m2, m3, a1, a2, a3, a4, a5, a6, a7, a8, -, -, -, hc, hpid, hs, -⟩ :=
      Props.C54_handshake hpr ea eb (hem 0 (by decide)) (hem 1 (by decide)) hm3
    obtain ⟨ti, tr, -, -, hi, hr, -, hk, -, -, hn', hn, -⟩ := hc
    obtain ⟨c, r', i', b1, b2⟩ := transport_pass (peers := I.peers) hr hi hk hn hn' (msg := helloAlice.take 11) (by decide)
    obtain ⟨e, he, hek⟩ : ∃ e, dB.peers.find? (fun e => e.id = r3.pid) = some e ∧ e.key = xbase a := by
      obtain ⟨q, hq, rfl⟩ := List.mem_map.mp hmem
      obtain ⟨e, he⟩ := Option.isSome_iff_exists.mp (show (dB.peers.find? fun e => e.id = r3.pid).isSome from by
        rw [List.find?_isSome]
        exact ⟨q, hq, by simp [hpid]⟩)
      have hem := List.mem_of_find?_eq_some he
      have hei : e.id = r3.pid := by simpa using List.find?_some he
      have : (⟨e.id, e.key⟩ : Peer) = ⟨q.id, q.key⟩ := List.inj_on_of_nodup_map g.nodup.2
        (List.mem_map.mpr ⟨e, hem, rfl⟩) (List.mem_map.mpr ⟨q, hq, rfl⟩) (by rw [hei, hpid])
      injection this with _ hk'
      exact ⟨e, he, hk'.trans hs⟩
    refine start a1 a2 fun BA' BB' sa sb hA' hB' => ?_
    refine Tri.mono (talkAt_accepted hA' hB' a3 a4 a5 (by rw [hpA]; exact a6) a7 a8 he b1 (by rw [hpA]; exact b2)) ?_
    rintro r L' ⟨rfl, hcard⟩
    refine .inl ⟨hkeys ▸ hm, by rw [hek], ?_⟩
    rw [hcard, hcA]
  · let R : Device := { dv with peers := [⟨1, xbase a⟩] }
    have hpr : Paired I R 1 ⟨1, xbase a⟩ := ⟨rfl, g.spub.trans (by rw [← g.spriv]), g.prologue.symm,
      show (1 : UInt32) ≠ _ by decide, by show dv.statesCounter ≠ _; rw [g.states]; decide,
      by decide, ⟨⟨1, xbase b⟩, rfl, g.spub.symm⟩, by simp [R, hId]⟩
    obtain ⟨i0, r0, i1, r1, r2, i2, i3, r3, m1, m2, m3, a1, a2, a3, a4, a5, a6, a7, a8, -⟩ :=
      Props.C54_handshake hpr ea eb (hem 0 (by decide)) (hem 1 (by decide)) hm3
    obtain ⟨s0, hs0, rfl⟩ : ∃ s, s.step = 0 ∧ r0 = ⟨.responder, 0, .handshake s⟩ := by
      rw [createResponder, if_neg hpr.countR] at a2
      exact ⟨_, by rfl, (Option.some.inj a2).symm⟩
    have a2' : (createResponder dv eb).1 = some ⟨.responder, 0, .handshake s0⟩ := by
      rw [← a2, createResponder, createResponder, if_neg hpr.countR, if_neg hpr.countR]
    rw [sessionRead_step0 hs0 _ dv.peers] at a4
    obtain ⟨s1, rfl, hs1⟩ := read_step0 hs0 a4
    obtain ⟨s2, rfl, hs2⟩ := write_step1 hs1 a5
    have a8' := read_step2 (peers := dv.peers) hs2 a8 (by rw [hkeys]; exact hm)
    refine start a1 a2' fun BA' BB' sa sb hA' hB' => ?_
    refine Tri.mono (talkAt_refused hA' hB' a3 a4 a5 (by rw [hpA]; exact a6) a7 a8') ?_
    rintro r L' ⟨rfl, BA', BB', c, r3, x, y, z⟩
    exact .inr ⟨hm, rfl, BA', BB', da, db, sa, sb, c, m3, i3, r3, x, y, z⟩

/-- The devices before the file is loaded. -/
theorem main_start (hk : HeapOk h0) (a b : B32) :
    ∃ da h1 pb h2 db h3 BA, create prologue (some nameAlice) srlzKey a h0 = .ok (da, h1) ∧
      addPeer da (some nameBob) (xbase b) h1 = .ok (pb, h2) ∧ pb ≠ 0 ∧ peerGetId pb h2 = .ok (1, h2) ∧
      create prologue (some nameBob) srlzKey b h2 = .ok (db, h3) ∧ db ≠ 0 ∧
      DevAt BA da ⟨alice a b, prologue, 1, []⟩ [] ∧
      Represents h0 h3 db (fresh (some nameBob) srlzKey b) BA prologue (xbase b).toList 1 := by
  obtain ⟨da, h1, e1, hn1, r, istr, hr, hst⟩ := (Sep.init hk).create prologue (some nameAlice) srlzKey a
  obtain ⟨pb, h2, i, e2, ei, eid, s2⟩ := hr.addPeer (some nameBob) (xbase b)
  obtain rfl : i = some 1 := by
    have : ((fresh (some nameAlice) srlzKey a).add (some nameBob) (xbase b)).1 = .added (some 1) := rfl
    rw [this] at ei
    injection ei with ei
    exact ei.symm
  have hpb : pb ≠ 0 := by
    rintro rfl
    rw [readId, if_pos rfl, run_pure] at eid
    cases eid
  have hid : peerGetId pb h2 = .ok (1, h2) := by
    rw [readId, if_neg hpb, run_bind] at eid
    obtain ⟨⟨x, h'⟩, e, e'⟩ := C.bind_eq_ok.mp eid
    rw [run_pure] at e'
    cases e'
    exact e
  have w : WRep h0 h2 0 da ⟨alice a b, prologue, 1, []⟩ [] [] := ⟨rfl, rfl, by simp, by
    rw [hst] at s2
    exact s2⟩
  obtain ⟨BA, hA, hs⟩ := w.devAt hn1
  rw [add_zero] at hs
  obtain ⟨db, h3, e3, hn3, r', istr', hr', hst'⟩ := hs.create prologue (some nameBob) srlzKey b
  exact ⟨da, h1, pb, h2, db, h3, BA, e1, e2, hpb, hid, e3, hn3, hA, r', istr', [], hr', hst'⟩

/-- A device with names and one without answer alike when a peer is added. -/
theorem device_add (d : Dev) (prlg : Bytes) (n : UInt32) (name : Bytes) (key : B32) :
    (d.add (some name) key).1 = .added (deviceAddPeer (World.device ⟨d, prlg, n, []⟩) key).1 ∧
      World.device ⟨(d.add (some name) key).2, prlg, n, []⟩ = (deviceAddPeer (World.device ⟨d, prlg, n, []⟩) key).2 := by
  unfold Dev.add deviceAddPeer
  have hc : (((World.device ⟨d, prlg, n, []⟩).peers.find? fun p => p.s == key).isSome = true) ↔ key ∈ d.peers.map (·.key) := by
    rw [List.find?_isSome]
    simp [World.device]
  by_cases h : d.counter = 4294967295 ∨ key ∈ d.peers.map (·.key)
  · rw [if_pos h, if_pos (by rw [hc]; exact h)]
    exact ⟨rfl, rfl⟩
  · rw [if_neg h, if_neg (by rw [hc]; exact h)]
    exact ⟨rfl, rfl⟩

theorem good_adds {b : B32} : ∀ (es : List Spec.AuthKeys.Entry) (d : Dev), Good b (World.device ⟨d, prologue, 1, []⟩) →
    Good b (World.device ⟨(d.run (Spec.AuthKeys.adds es)).2, prologue, 1, []⟩)
  | [], _, g => g
  | e :: es, d, g => by
    refine good_adds es (d.add (some e.2) e.1).2 ?_
    rw [(device_add d prologue 1 e.2 e.1).2]
    exact good_add g e.1

/-- The loaded file, on the heap and with values. -/
def Loaded (h0 : Heap) (dvp : ℕ) (X : Blocks) (prlg pub : Bytes) (n m : UInt32) (sp : B32) : C Device → C (Unit × Heap) → Prop
  | .ub u, r => r = .ub u
  | .ok dv, r => ∃ d h', r = .ok ((), h') ∧ Represents h0 h' dvp d X prlg pub n ∧ World.device ⟨d, prlg, m, []⟩ = dv ∧
      d.spriv = sp

theorem loadLines_load {X : Blocks} {prlg pub : Bytes} {n : UInt32} (m : UInt32) (grow : ℕ → ℕ) :
    ∀ (ls : List Bytes) (buf : Auth.Buf) (h : Heap) (d : Dev), Represents h0 h dvp d X prlg pub n →
      Loaded h0 dvp X prlg pub n m d.spriv (load grow ls buf (World.device ⟨d, prlg, m, []⟩)) (Auth.loadLines grow dvp ls buf h)
  | [], _, h, d, s => ⟨d, h, rfl, s, rfl, rfl⟩
  | l :: ls, buf, h, d, s => by
    rw [Auth.loadLines, load]
    simp only []
    by_cases hk : Auth.keyEnd l ≠ 44
    · rw [if_pos hk, if_pos hk]
      exact ⟨d, h, rfl, s, rfl, rfl⟩
    · rw [if_neg hk, if_neg hk]
      cases hb : Auth.base642bin 32 (l.take 44) with
      | none => exact ⟨d, h, rfl, s, rfl, rfl⟩
      | some bin =>
        simp only [run_bind]
        cases hn : Auth.cstring (((Auth.fill grow buf l).set (l.length - 1) (some 0)).drop 45) with
        | ub u =>
          simp only [Auth.ofC, hn, C.ub_bind]
          exact rfl
        | ok name =>
          simp only [Auth.ofC, hn, C.ok_bind]
          cases hw : Auth.whole bin with
          | ub u =>
            simp only [hw, C.ub_bind]
            exact rfl
          | ok key =>
            simp only [hw, C.ok_bind]
            obtain ⟨r, istr, ns, hr, rfl⟩ := s
            obtain ⟨pp, h', i, e1, e2, e3, s'⟩ := hr.addPeer (some name) key
            rw [e1, C.ok_bind]
            simp only
            obtain ⟨d1, d2⟩ := device_add d prlg m name key
            have hsp : (d.add (some name) key).2.spriv = d.spriv := by
              unfold Dev.add
              split <;> rfl
            rw [e2] at d1
            injection d1 with d1
            have hnone : (deviceAddPeer (World.device ⟨d, prlg, m, []⟩) key).1 = none →
                (deviceAddPeer (World.device ⟨d, prlg, m, []⟩) key).2 = World.device ⟨d, prlg, m, []⟩ := by
              unfold deviceAddPeer
              split
              · exact fun _ => rfl
              · intro h
                cases h
            rcases hda : deviceAddPeer (World.device ⟨d, prlg, m, []⟩) key with ⟨o, dv1⟩
            rw [hda] at d1 d2 hnone
            simp only at d1 d2 hnone
            subst d1
            by_cases hp : pp = 0
            · rw [readId, if_pos hp, run_pure] at e3
              cases e3
              rw [if_pos hp]
              exact ⟨_, h', rfl, s', d2.trans (hnone rfl), hsp⟩
            · rw [readId, if_neg hp, run_bind] at e3
              obtain ⟨⟨x, h2⟩, -, e4⟩ := C.bind_eq_ok.mp e3
              rw [run_pure] at e4
              cases e4
              rw [if_neg hp]
              have := loadLines_load m grow ls ((Auth.fill grow buf l).set (l.length - 1) (some 0)) _ _ s'
              rw [d2, hsp] at this
              exact this

/-- `main` once the file is loaded. -/
theorem main_after {a b : B32} (ea eb : B32) {grow : ℕ → ℕ} {content : Bytes} {da db pb : ℕ} {h1 h2 h3 h4 : Heap} {BA : Blocks}
    (e1 : create prologue (some nameAlice) srlzKey a h0 = .ok (da, h1))
    (e2 : addPeer da (some nameBob) (xbase b) h1 = .ok (pb, h2)) (hpb : pb ≠ 0) (eid : peerGetId pb h2 = .ok (1, h2))
    (e3 : create prologue (some nameBob) srlzKey b h2 = .ok (db, h3)) (hdb : db ≠ 0)
    (hA : DevAt BA da ⟨alice a b, prologue, 1, []⟩ [])
    {dB : Dev} (hsp : dB.spriv = b) (g : Good b (World.device ⟨dB, prologue, 1, []⟩))
    (s4 : Represents h0 h4 db dB BA prologue (xbase b).toList 1)
    (e5 : Auth.loadAuthkeys grow db (some content) h3 = .ok (0, h4)) :
    ∃ r h L', mainAt grow a b ea eb (some content) h0 = .ok (r, h) ∧ Sep h0 h L' ∧
      Ends a b dB r L' := by
  have w : WRep h0 h4 BA db ⟨dB, prologue, 1, []⟩ [] [] := ⟨rfl, rfl, by simp, by
    show Represents h0 h4 db dB (allB [] + BA) prologue (xbase dB.spriv).toList 1
    rw [hsp, show allB [] + BA = BA from zero_add BA]
    exact s4⟩
  obtain ⟨BB, hB, hs⟩ := w.devAt hdb
  obtain ⟨r, h, L', e, hs', q⟩ := sessionsAt_tri (h0 := h0) (ea := ea) (eb := eb) g hA hB h4 (by
    convert hs using 1
    abel)
  refine ⟨r, h, L', ?_, hs', q⟩
  have hm : mainAt grow a b ea eb (some content) = (do
    let da ← create prologue (some nameAlice) srlzKey a
    let pb ← addPeer da (some nameBob) (xbase b)
    if pb = 0 then pure { code := 1 }
    else do
      let bobId ← peerGetId pb
      let db ← create prologue (some nameBob) srlzKey b
      let ret ← Auth.loadAuthkeys grow db (some content)
      if ret ≠ 0 then pure { code := 1 }
      else sessionsAt da db bobId ea eb) := rfl
  rw [hm]
  rw [run_bind, e1, C.ok_bind]
  simp only
  rw [run_bind, e2, C.ok_bind]
  simp only
  rw [if_neg hpb, run_bind, eid, C.ok_bind]
  simp only
  rw [run_bind, e3, C.ok_bind]
  simp only
  rw [run_bind, e5, C.ok_bind]
  simp only [ne_eq, not_true_eq_false, if_false]
  exact e

theorem main_loaded {a b : B32} (ea eb : B32) {grow : ℕ → ℕ} {content : Bytes} {da db pb : ℕ} {h1 h2 h3 h4 : Heap} {BA : Blocks}
    (e1 : create prologue (some nameAlice) srlzKey a h0 = .ok (da, h1))
    (e2 : addPeer da (some nameBob) (xbase b) h1 = .ok (pb, h2)) (hpb : pb ≠ 0) (eid : peerGetId pb h2 = .ok (1, h2))
    (e3 : create prologue (some nameBob) srlzKey b h2 = .ok (db, h3)) (hdb : db ≠ 0)
    (hA : DevAt BA da ⟨alice a b, prologue, 1, []⟩ [])
    (s3 : Represents h0 h3 db (fresh (some nameBob) srlzKey b) BA prologue (xbase b).toList 1)
    {es : List Spec.AuthKeys.Entry} {outs : List Spec.Device.Out} (e4 : calls db (Spec.AuthKeys.adds es) h3 = .ok (outs, h4))
    (e5 : Auth.loadAuthkeys grow db (some content) h3 = .ok (0, h4)) :
    ∃ r h L', mainAt grow a b ea eb (some content) h0 = .ok (r, h) ∧ Sep h0 h L' ∧
      Ends a b ((fresh (some nameBob) srlzKey b).run (Spec.AuthKeys.adds es)).2 r L' := by
  obtain ⟨h4', e4', s4⟩ := Represents.calls (Spec.AuthKeys.adds es) s3
  rw [e4] at e4'
  injection e4' with e4'
  injection e4' with _ e4'
  subst e4'
  exact main_after ea eb e1 e2 hpb eid e3 hdb hA (run_keys (fresh (some nameBob) srlzKey b) (Spec.AuthKeys.adds es)).2
    (good_adds es _ (good_create b)) s4 e5

/-- The private key of a device is in its memory. -/
theorem HasSn.secret {d : Dev} {prlg : Bytes} {p : ℕ} {s : Session} (hd : HasSn B dvp d prlg p s) {h : Heap}
    (hs : Sep h0 h (B + F)) : ∃ x, h0.next ≤ x ∧ h.mem x = some (.bytes d.spriv.toList) := by
  obtain ⟨r, istr, ns, z, -, -, -, hr, -⟩ := hd.open hs
  have := hr.sep.at_ (r.spriv, .bytes d.spriv.toList) (by simp [devBlocks])
  exact ⟨_, this.1, this.2.2⟩

theorem DevAt.secret {w : World} {ps : List ℕ} (hd : DevAt B dvp w ps) {h : Heap} (hs : Sep h0 h (B + F)) :
    ∃ x, h0.next ≤ x ∧ h.mem x = some (.bytes w.d.spriv.toList) := by
  obtain ⟨zs, hw⟩ := hd.rep hs
  obtain ⟨r, istr, ns, hr, -⟩ := hw.rep
  have := hr.sep.at_ (r.spriv, .bytes w.d.spriv.toList) (by simp [devBlocks])
  exact ⟨_, this.1, this.2.2⟩

/-- Only the keys of the calls are added. -/
theorem run_adds_keys : ∀ (es : List Spec.AuthKeys.Entry) (d : Dev) (k : B32),
    k ∈ (d.run (Spec.AuthKeys.adds es)).2.peers.map (·.key) → k ∈ es.map (·.1) ∨ k ∈ d.peers.map (·.key)
  | [], _, _, h => Or.inr h
  | e :: es, d, k, h => by
    rcases run_adds_keys es (d.add (some e.2) e.1).2 k h with h | h
    · exact Or.inl (List.mem_cons_of_mem _ h)
    · unfold Dev.add at h
      split at h
      · exact Or.inr h
      · rcases List.mem_cons.mp h with rfl | h
        · exact Or.inl (List.mem_cons_self ..)
        · exact Or.inr h

end

end Verif.Noise.Example
