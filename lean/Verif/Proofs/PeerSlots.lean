import Verif.Proofs.PeerNoise

/-!
# Runs of the Noise helpers on the heap
-/

set_option linter.unusedSectionVars false

namespace Verif.Noise.Mem

open TpDkg NoiseCrypto Spec.Device Spec.SessionMem Spec.PeerNoise

/-- A slot: its value, the address in it, and the session behind the address. -/
abbrev Slot := Ptr Session × ℕ × Option (SnPtr × Sn)

def SlotOk (h : Heap) (t : Slot) : Prop :=
  match t.1, t.2.2 with
  | .null, none => t.2.1 = 0
  | .live s, some z => z.2.s = s ∧ z.1.a = t.2.1
  | .freed, none => t.2.1 ≠ 0 ∧ t.2.1 < h.next ∧ h.mem t.2.1 = none
  | _, _ => False

theorem SlotOk.keep {α : Type} {m : M α} (k : Keeps m) {h h' : Heap} {a : α} (e : m h = .ok (a, h')) {t : Slot}
    (s : SlotOk h t) : SlotOk h' t := by
  obtain ⟨p, q, o⟩ := t
  obtain ⟨l, f⟩ := k _ _ _ e
  cases p <;> cases o <;> simp only [SlotOk] at s ⊢
  · exact s
  · exact s
  · exact ⟨s.1, lt_of_lt_of_le s.2.1 l, f _ s.2.1 s.2.2⟩

theorem SlotOk.isLive {h : Heap} {t : Slot} (s : SlotOk h t) : isLive t.1 = t.2.2.isSome := by
  obtain ⟨p, q, o⟩ := t
  cases p <;> cases o <;> simp only [SlotOk] at s <;> rfl

theorem allB_get {zs : List (Option (SnPtr × Sn))} {i : ℕ} {y : Option (SnPtr × Sn)} (h : zs[i]? = some y)
    (o : Option (SnPtr × Sn)) : allB zs = y.elim 0 snB + allB (zs.set i none) ∧
      allB (zs.set i o) = (o.elim 0 snB) + allB (zs.set i none) := by
  induction zs generalizing i with
  | nil => simp at h
  | cons x zs ih =>
    cases i with
    | zero =>
      simp only [List.getElem?_cons_zero, Option.some.injEq] at h
      subst h
      refine ⟨?_, ?_⟩
      · cases x
        · simp [allB]
        · rfl
      · cases o
        · simp [allB]
        · rfl
    | succ i =>
      obtain ⟨h1, h2⟩ := ih (by simpa using h)
      cases x with
      | none => exact ⟨h1, h2⟩
      | some x =>
        simp only [List.set_cons_succ, allB]
        rw [h1, h2]
        exact ⟨by abel, by abel⟩

/-- Blocks of the sessions whose slot was overwritten. -/
def lostB (K : List (SnPtr × Sn)) : Blocks := allB (K.map some)

theorem lostB_append (o : Option (SnPtr × Sn)) (K : List (SnPtr × Sn)) : lostB (o.toList ++ K) = o.elim 0 snB + lostB K := by
  cases o
  · simp [lostB]
  · simp [lostB, allB]

section
variable [Hashes] [NoiseCrypto] {h0 h h' : Heap} {dvp : ℕ} {w : World} {v : Vals} {ts : List Slot} {K : List (SnPtr × Sn)}
  {U : Blocks} {nm : Bytes}

/-- The heap holds the device and the sessions of a program, those it lost, and the blocks that leaked. -/
structure NRep (h0 h : Heap) (dvp : ℕ) (nm : Bytes) (w : World) (v : Vals) (ts : List Slot) (K : List (SnPtr × Sn))
    (U : Blocks) : Prop where
  dev : w.device = v.dv
  name : w.d.name = nm
  names : ∀ e ∈ w.d.peers, e.name ≠ []
  slots : v.slots = ts.map (·.1)
  slot : ∀ t ∈ ts, SlotOk h t
  ok : ∀ t ∈ ts, ∀ z, t.2.2 = some z → SnOk dvp w.d.spriv z
  lost : K.length = v.lost
  leaked : Multiset.card U = v.leaked
  kept : ∀ z ∈ K, SnOk dvp w.d.spriv z
  rep : Represents h0 h dvp w.d (allB (ts.map (·.2.2)) + (lostB K + U)) w.prologue (xbase w.d.spriv).toList w.next

/-- The addresses in the slots. -/
def addrs (ts : List Slot) : List ℕ := ts.map (·.2.1)

theorem addrs_set {i : ℕ} {t : Slot} (ht : ts[i]? = some t) {p : Ptr Session} {o : Option (SnPtr × Sn)} :
    addrs (ts.set i (p, t.2.1, o)) = addrs ts := by
  unfold addrs
  rw [List.map_set]
  apply List.ext_getElem?
  intro j
  rw [List.getElem?_set]
  obtain ⟨hi, hg⟩ := List.getElem?_eq_some_iff.mp ht
  split
  · rename_i hij
    subst hij
    simp [hi, hg]
  · rfl

theorem ld_map {α β : Type} {l : List α} (f : α → β) (i : ℕ) : ld (l.map f) i = match l[i]? with
    | some x => .ok (f x)
    | none => .ub .oob := by
  unfold ld
  rw [List.getElem?_map]
  cases l[i]? <;> rfl

theorem NRep.put (s : NRep h0 h dvp nm w v ts K U) {i : ℕ} {t : Slot} {z : SnPtr × Sn} (ht : ts[i]? = some t)
    (hz : t.2.2 = some z) (hk : ∀ t, SlotOk h t → SlotOk h' t) {r : DeviceRec} {istr : ℕ} {ns : List Node}
    (hr : Rep h0 h dvp w.d (allB (ts.map (·.2.2)) + (lostB K + U)) r istr w.prologue (xbase w.d.spriv).toList ns)
    (hst : r.states = w.next) (o : Option (SnPtr × Sn))
    (ho : ∀ z', o = some z' → SnOk dvp w.d.spriv z' ∧ z'.1.a = z.1.a)
    (hq : o = none → z.1.a < h'.next ∧ h'.mem z.1.a = none) (V : Blocks) {n : ℕ} (hV : Multiset.card V = n)
    (hs : Sep h0 h' (o.elim 0 snB + (devAll dvp r istr w.d w.prologue (xbase w.d.spriv).toList ns +
      (allB ((ts.map (·.2.2)).set i none) + (lostB K + U)) + V))) :
    NRep h0 h' dvp nm w (v.put i (ptrV o) n) (ts.set i (ptrV o, t.2.1, o)) K (U + V) := by
  have hm : t ∈ ts := List.mem_of_getElem? ht
  have hzok := s.ok t hm z hz
  have hta : z.1.a = t.2.1 := by
    have := s.slot t hm
    obtain ⟨p, q, o'⟩ := t
    simp only at hz
    subst hz
    cases p <;> simp only [SlotOk] at this
    exact this.2
  refine ⟨s.dev, s.name, s.names, ?_, ?_, ?_, s.lost, ?_, s.kept, ⟨r, istr, ns, hr.with ?_, hst⟩⟩
  · simp only [Vals.put, s.slots, List.map_set]
  · intro t' ht'
    rcases List.mem_or_eq_of_mem_set ht' with h | h
    · exact hk _ (s.slot t' h)
    · rw [h]
      cases o with
      | none =>
        obtain ⟨q1, q2⟩ := hq rfl
        exact ⟨by rw [← hta]; exact hzok.ne, by rw [← hta]; exact q1, by rw [← hta]; exact q2⟩
      | some z' => exact ⟨rfl, ((ho z' rfl).2).trans hta⟩
  · intro t' ht' z' hz'
    rcases List.mem_or_eq_of_mem_set ht' with h | h
    · exact s.ok t' h z' hz'
    · rw [h] at hz'; exact (ho z' hz').1
  · simp only [Vals.put, Multiset.card_add, s.leaked, hV]
  · rw [List.map_set, (allB_get (zs := ts.map (·.2.2)) (i := i) (y := some z) (by simp [ht, hz]) o).2]
    convert hs using 1
    simp only [devAll]
    abel

/-- Nothing changed. -/
theorem NRep.same (s : NRep h0 h dvp nm w v ts K U) {i : ℕ} {t : Slot} (ht : ts[i]? = some t) :
    NRep h0 h dvp nm w (v.put i t.1 0) ts K U := by
  have : v.put i t.1 0 = v := by
    unfold Vals.put
    rw [s.slots, ← List.map_set]
    have : ts.set i t = ts := by
      obtain ⟨hi, hg⟩ := List.getElem?_eq_some_iff.mp ht
      rw [← hg]; exact List.set_getElem_self hi
    rw [this, ← s.slots]
    rfl
  rwa [this]

theorem NRep.over (s : NRep h0 h dvp nm w v ts K U) {i : ℕ} {t : Slot} (ht : ts[i]? = some t) {w' : World} {dv : Noise.Device}
    (hdev : w'.device = dv) (hname : w'.d.name = w.d.name) (hnames : ∀ e ∈ w'.d.peers, e.name ≠ [])
    (hsp : w'.d.spriv = w.d.spriv) (hk : ∀ t, SlotOk h t → SlotOk h' t) (p : Ptr Session) (q : ℕ)
    (o : Option (SnPtr × Sn)) (hnew : SlotOk h' (p, q, o)) (ho : ∀ z', o = some z' → SnOk dvp w.d.spriv z')
    (V : Blocks) {n : ℕ} (hV : Multiset.card V = n)
    (hr : Represents h0 h' dvp w'.d (o.elim 0 snB + (allB (ts.map (·.2.2)) + (lostB K + U) + V)) w'.prologue
      (xbase w'.d.spriv).toList w'.next) :
    NRep h0 h' dvp nm w' (v.over dv i t.1 p n) (ts.set i (p, q, o)) (t.2.2.toList ++ K) (U + V) := by
  have hm : t ∈ ts := List.mem_of_getElem? ht
  refine ⟨hdev, hname.trans s.name, hnames, ?_, ?_, ?_, ?_, ?_, ?_, ?_⟩
  · simp only [Vals.over, s.slots, List.map_set]
  · intro t' ht'
    rcases List.mem_or_eq_of_mem_set ht' with h | h
    · exact hk _ (s.slot t' h)
    · rw [h]; exact hnew
  · intro t' ht' z' hz'
    rw [hsp]
    rcases List.mem_or_eq_of_mem_set ht' with h | h
    · exact s.ok t' h z' hz'
    · rw [h] at hz'; exact ho z' hz'
  · simp only [Vals.over, (s.slot t hm).isLive, List.length_append, s.lost]
    cases t.2.2 <;> simp; omega
  · simp only [Vals.over, Multiset.card_add, s.leaked, hV]
  · intro z hz
    rw [hsp]
    rcases List.mem_append.mp hz with hz | hz
    · exact s.ok t hm z (by simpa using hz)
    · exact s.kept z hz
  · rw [List.map_set, lostB_append]
    obtain ⟨g1, g2⟩ := allB_get (zs := ts.map (·.2.2)) (i := i) (y := t.2.2) (by simp [ht]) o
    rw [g2]
    rw [g1] at hr
    convert hr using 1
    abel

/-- The same with another device and nothing else changed. -/
theorem NRep.split (s : NRep h0 h dvp nm w v ts K U) {i : ℕ} {t : Slot} {z : SnPtr × Sn} (ht : ts[i]? = some t)
    (hz : t.2.2 = some z) {r : DeviceRec} {istr : ℕ} {ns : List Node}
    (hr : Rep h0 h dvp w.d (allB (ts.map (·.2.2)) + (lostB K + U)) r istr w.prologue (xbase w.d.spriv).toList ns) :
    Sep h0 h (snB z + (devAll dvp r istr w.d w.prologue (xbase w.d.spriv).toList ns +
      (allB ((ts.map (·.2.2)).set i none) + (lostB K + U)))) := by
  convert hr.sep using 1
  rw [(allB_get (zs := ts.map (·.2.2)) (i := i) (y := some z) (by simp [ht, hz]) none).1]
  simp only [devAll, Option.elim_some]
  abel

theorem devIn {X X' : Blocks} {d : Dev} {r : DeviceRec} {istr : ℕ} {prlg pub : Bytes} {ns : List Node}
    (hr : Rep h0 h dvp d X r istr prlg pub ns) : DevIn (devAll dvp r istr d prlg pub ns + X') dvp d r istr prlg pub ns :=
  ⟨Multiset.le_add_right _ _, hr.name, hr.nodes, hr.peers, hr.ids⟩

theorem snB_lt {z : SnPtr × Sn} {L : Blocks} (s : Sep h0 h (snB z + L)) : z.1.a < h.next := by
  have := s.at_ (z.1.a, .session z.1.r) (by simp [snB, core])
  exact this.2.1

theorem getKey_read {spriv : B32} {z : SnPtr × Sn} {L : Blocks} (ok : SnOk dvp spriv z) (s : Sep h0 h (snB z + L)) :
    getKey z.1.a h = .ok ((sessionGetKey z.2.s).map (·.toList), h) := by
  obtain ⟨⟨a, rec, istr, pstr, pname, sp, pub⟩, ⟨⟨role, pid, st⟩, id, name, peer, heard⟩⟩ := z
  have hst := ok.st
  have hrole := ok.role
  simp only [StOk] at hst
  simp only at hrole
  subst hrole
  unfold getKey sessionGetKey
  rw [run_bind, s.loadSession (x := rec) (by simp [snB, core]), C.ok_bind]
  revert hst
  cases hrs : rec.st with
  | handshake p =>
    cases st with
    | handshake x => rintro -; rfl
    | transport x => exact fun h => h.elim
  | transport q =>
    cases st with
    | handshake x => exact fun h => h.elim
    | transport t =>
      rintro -
      simp only
      cases hr : rec.role with
      | initiator =>
        rw [run_bind, s.loadN (v := t.sendKey) (by simp [snB, core, stBlocks, hrs, tsBlocks])]
        rfl
      | responder =>
        rw [run_bind, s.loadN (v := t.recvKey) (by simp [snB, core, stBlocks, hrs, tsBlocks])]
        rfl

/-- What a step shows. -/
def StepOk (h0 h : Heap) (dvp : ℕ) (nm : Bytes) (ts : List Slot) (op : Spec.PeerNoise.Op) : C (Spec.PeerNoise.Out × Vals) → Prop
  | .ok (out, v') => ∃ h' w' ts' K' U', Spec.PeerNoise.stepAt dvp (addrs ts) op h = .ok ((out, addrs ts'), h') ∧
      NRep h0 h' dvp nm w' v' ts' K' U'
  | .ub _ => short op → ∃ u, Spec.PeerNoise.stepAt dvp (addrs ts) op h = .ub u

theorem liftC_ok {α : Type} {c : C α} {a : α} (h : Heap) (e : c = .ok a) : liftC c h = .ok (a, h) := by
  subst e; rfl

theorem rname_ne (k : ℕ) : text (some (rname k)) ≠ [] := by
  unfold text rname
  simp

theorem device_add (w : World) (name : Bytes) (key : B32) :
    deviceAddPeer w.device key = match (w.d.add (some name) key) with
      | (.added i, d) => (i, ({ w with d } : World).device)
      | _ => (none, w.device) := by
  unfold deviceAddPeer Dev.add
  have : ((w.device.peers.find? fun p => p.s == key).isSome = true) ↔ key ∈ w.d.peers.map (·.key) := by
    rw [List.find?_isSome]
    simp [World.device]
  have hc : w.device.peersCounter = w.d.counter := rfl
  rw [hc]
  by_cases hf : w.d.counter = 4294967295 ∨ key ∈ w.d.peers.map (·.key)
  · rw [if_pos hf, if_pos (by rwa [this])]
  · rw [if_neg hf, if_neg (by rwa [this])]
    rfl

/-! ### Steps -/

theorem ldAddr {i : ℕ} : ld (addrs ts) i = match ts[i]? with
    | some t => .ok t.2.1
    | none => .ub .oob := by
  unfold addrs
  rw [ld_map]
  cases ts[i]? <;> rfl

theorem NRep.encrypt (s : NRep h0 h dvp nm w v ts K U) (i : ℕ) (input : Bytes) (len : ℕ) :
    StepOk h0 h dvp nm ts (.encrypt i input len) (v.step (.encrypt i input len)) := by
  simp only [Vals.step, s.slots, ld_map]
  rcases ht : ts[i]? with _ | t
  · exact fun _ => ⟨.oob, by simp only [Spec.PeerNoise.stepAt, run_bind, ldAddr, ht]; rfl⟩
  have hat : ld (addrs ts) i = .ok t.2.1 := by rw [ldAddr, ht]
  have hrun : ∀ {x h'}, encryptNoiseAt t.2.1 input len h = .ok (x, h') →
      Spec.PeerNoise.stepAt dvp (addrs ts) (.encrypt i input len) h = .ok ((.ret x.1 x.2, addrs ts), h') := by
    intro x h' e
    simp only [Spec.PeerNoise.stepAt, run_bind, liftC_ok h hat, C.ok_bind, e, run_pure]
  have hm : t ∈ ts := List.mem_of_getElem? ht
  have hsl := s.slot t hm
  obtain ⟨r, istr, ns, hr, hst⟩ := s.rep
  obtain ⟨p, q, o⟩ := t
  cases p with
  | uninit => cases o <;> exact hsl.elim
  | null =>
    cases o with
    | some z => exact hsl.elim
    | none =>
      obtain rfl : q = 0 := hsl
      simp only [C.ok_bind, encryptNoise, Ptr.deref]
      refine ⟨h, w, ts, K, U, hrun (x := (1, none)) (h' := h) (by simp only [encryptNoiseAt, if_true, run_pure]), ?_⟩
      exact s.same ht
  | freed =>
    cases o with
    | some z => exact hsl.elim
    | none =>
      obtain ⟨g1, g2, g3⟩ := hsl
      simp only [C.ok_bind, encryptNoise, Ptr.deref, C.ub_bind]
      intro hsh
      obtain ⟨u, hu⟩ := encryptNoiseAt_freed g1 g2 g3 (m := input) hsh len
      exact ⟨u, by simp only [Spec.PeerNoise.stepAt, run_bind, liftC_ok h hat, C.ok_bind, hu, C.ub_bind]⟩
  | live sn =>
    cases o with
    | none => exact hsl.elim
    | some z =>
      obtain ⟨rfl, ha⟩ := hsl
      simp only at ha
      have hzok := s.ok _ hm z rfl
      obtain ⟨x, h', L', e, s', z', ok', ha', ev, rfl⟩ := encryptNoiseAt_tri hzok input len h (s.split ht rfl hr)
      simp only [C.ok_bind, ev]
      refine ⟨h', w, ts.set i (ptrV (some z'), q, some z'), K, U + 0, ?_, ?_⟩
      · rw [addrs_set (t := (Ptr.live z.2.s, q, some z)) ht]
        exact hrun (by rw [← ha]; exact e)
      · exact s.put ht rfl (fun t st => st.keep (keeps_encryptNoiseAt _ _ _) e) hr hst (some z')
          (fun z'' hz => by cases hz; exact ⟨ok', ha'⟩) (fun h => by cases h) 0 rfl (by rw [add_zero]; exact s')

theorem NRep.peers (s : NRep h0 h dvp nm w v ts K U) : v.dv.peers = w.d.peers.map fun e => ⟨e.id, e.key⟩ := by
  rw [← s.dev]; rfl

theorem NRep.decrypt (s : NRep h0 h dvp nm w v ts K U) (i : ℕ) (input : Bytes) (len : ℕ) :
    StepOk h0 h dvp nm ts (.decrypt i input len) (v.step (.decrypt i input len)) := by
  simp only [Vals.step, s.slots, ld_map]
  rcases ht : ts[i]? with _ | t
  · exact fun _ => ⟨.oob, by simp only [Spec.PeerNoise.stepAt, run_bind, ldAddr, ht]; rfl⟩
  have hat : ld (addrs ts) i = .ok t.2.1 := by rw [ldAddr, ht]
  have hrun : ∀ {x h'}, decryptNoiseAt t.2.1 input len h = .ok (x, h') →
      Spec.PeerNoise.stepAt dvp (addrs ts) (.decrypt i input len) h = .ok ((.ret x.1 x.2, addrs ts), h') := by
    intro x h' e
    simp only [Spec.PeerNoise.stepAt, run_bind, liftC_ok h hat, C.ok_bind, e, run_pure]
  have hm : t ∈ ts := List.mem_of_getElem? ht
  have hsl := s.slot t hm
  obtain ⟨r, istr, ns, hr, hst⟩ := s.rep
  obtain ⟨p, q, o⟩ := t
  cases p with
  | uninit => cases o <;> exact hsl.elim
  | null =>
    cases o with
    | some z => exact hsl.elim
    | none =>
      obtain rfl : q = 0 := hsl
      simp only [C.ok_bind, decryptNoise, Ptr.deref, decryptLeak]
      exact ⟨h, w, ts, K, U, hrun (x := (1, none)) (h' := h) (by simp only [decryptNoiseAt, if_true, run_pure]), s.same ht⟩
  | freed =>
    cases o with
    | some z => exact hsl.elim
    | none =>
      obtain ⟨g1, g2, g3⟩ := hsl
      simp only [C.ok_bind, decryptNoise, Ptr.deref, C.ub_bind]
      intro hsh
      obtain ⟨u, hu⟩ := decryptNoiseAt_freed g1 g3 (m := input) hsh len
      exact ⟨u, by simp only [Spec.PeerNoise.stepAt, run_bind, liftC_ok h hat, C.ok_bind, hu, C.ub_bind]⟩
  | live sn =>
    cases o with
    | none => exact hsl.elim
    | some z =>
      obtain ⟨rfl, ha⟩ := hsl
      simp only at ha
      have hzok := s.ok _ hm z rfl
      obtain ⟨x, h', L', e, s', z', V, ok', ha', ev, hV, rfl⟩ := decryptNoiseAt_tri hzok (devIn hr) s.peers input len h
        (s.split ht rfl hr)
      simp only [C.ok_bind, ev]
      refine ⟨h', w, ts.set i (ptrV (some z'), q, some z'), K, U + V, ?_, ?_⟩
      · rw [addrs_set (t := (Ptr.live z.2.s, q, some z)) ht]
        exact hrun (by rw [← ha]; exact e)
      · exact s.put ht rfl (fun t st => st.keep (keeps_decryptNoiseAt _ _ _) e) hr hst (some z')
          (fun z'' hz => by cases hz; exact ⟨ok', ha'⟩) (fun h => by cases h) V hV s'

theorem lookupPeer_eq {X : Blocks} {r : DeviceRec} {istr : ℕ} {prlg pub : Bytes} {ns : List Node}
    (hr : Rep h0 h dvp w.d X r istr prlg pub ns) (pid : UInt32) :
    lookupPeer w.device pid = (ns.find? fun n => decide (n.e.id = pid)).map fun n => (⟨n.e.id, n.e.key⟩ : Noise.Peer) := by
  unfold lookupPeer
  have h1 : (w.device.peers.find? fun p => p.id == pid) =
      (ns.find? fun n => decide (n.e.id = pid)).map fun n => (⟨n.e.id, n.e.key⟩ : Noise.Peer) := by
    simp only [World.device, hr.peers, List.map_map, List.find?_map]
    simp only [Function.comp_def, Bool.beq_eq_decide_eq]
  split
  · rename_i h0
    subst h0
    have : (ns.find? fun n => decide (n.e.id = 0)) = none := by
      rw [List.find?_eq_none]
      intro n hn
      have := (hr.ids.lt n.e (by rw [hr.peers]; exact List.mem_map_of_mem hn)).1
      simp only [decide_eq_true_eq]
      intro h
      rw [h] at this
      exact absurd this (by decide)
    rw [this]; rfl
  · exact h1

theorem finishNoiseAt_tri {z : SnPtr × Sn} (ok : SnOk dvp w.d.spriv z) {X X0 : Blocks} {r : DeviceRec} {istr : ℕ}
    {prlg pub : Bytes} {ns : List Node} (hr : Rep h0 h dvp w.d X0 r istr prlg pub ns) (hn : ∀ e ∈ w.d.peers, e.name ≠ [])
    (log : Bool) (msg : Bytes) :
    Tri h0 (snB z + (devAll dvp r istr w.d prlg pub ns + X)) (finishNoiseAt log dvp z.1.a msg) (fun x L' => ∃ o U,
      (∀ z', o = some z' → SnOk dvp w.d.spriv z' ∧ z'.1.a = z.1.a) ∧
      finishNoise log w.device (.live z.2.s) msg = .ok (x, ptrV o) ∧ (o = none ↔ x ≠ 0) ∧
      Multiset.card U = finishLeak log w.device (.live z.2.s) msg ∧
      L' = o.elim 0 snB + (devAll dvp r istr w.d prlg pub ns + X + U)) := by
  have ev : finishNoise log w.device (.live z.2.s) msg =
      if log ∧ lookupPeer w.device z.2.s.pid = none then .ok (2, .freed)
      else .ok (finishReadV w.device.peers z.2.s msg) := by
    simp only [finishNoise, Ptr.deref, C.ok_bind, finishReadV]
    split
    · rfl
    · rcases sessionRead w.device.peers z.2.s msg with ⟨rc, em, sn⟩
      simp only
      split
      · rfl
      · rcases em.bind (unpack 0) with _ | m <;> rfl
  have rd : ¬ (log = true ∧ lookupPeer w.device z.2.s.pid = none) →
      Tri h0 (snB z + (devAll dvp r istr w.d prlg pub ns + X)) (finishReadAt z.1.a msg) (fun x L' => ∃ o U,
      (∀ z', o = some z' → SnOk dvp w.d.spriv z' ∧ z'.1.a = z.1.a) ∧
      finishNoise log w.device (.live z.2.s) msg = .ok (x, ptrV o) ∧ (o = none ↔ x ≠ 0) ∧
      Multiset.card U = finishLeak log w.device (.live z.2.s) msg ∧
      L' = o.elim 0 snB + (devAll dvp r istr w.d prlg pub ns + X + U)) := by
    intro hl
    refine Tri.mono (finishReadAt_tri ok (devIn hr) msg) ?_
    rintro x L' ⟨o, U, g1, g2, g3, g4, g5⟩
    refine ⟨o, U, g1, ?_, g3, ?_, g5⟩
    · rw [ev, if_neg hl, g2]; rfl
    · rw [finishLeak, if_neg hl, g4]; rfl
  unfold finishNoiseAt
  rw [if_neg ok.ne]
  cases log with
  | false => exact rd (by simp)
  | true =>
    simp only [if_true]
    refine Tri.read (a := z.2.s.pid) (fun h x => by
      unfold getPeerId
      rw [run_bind, x.loadSession (x := z.1.r) (by simp [snB, core]), C.ok_bind, run_pure, ok.pid]) ?_
    refine Tri.read (fun h x => (hr.with (Y := snB z + X) (by convert x using 1; simp only [devAll]; abel)).lookupById z.2.s.pid) ?_
    rcases hf : ns.find? fun n => decide (n.e.id = z.2.s.pid) with _ | n
    · simp only [hf, Option.map_none, Option.getD_none, if_true]
      have hl : true = true ∧ lookupPeer w.device z.2.s.pid = none := ⟨rfl, by rw [lookupPeer_eq hr, hf]; rfl⟩
      refine Tri.drop (L1 := snB z) rfl (sessionFree_drop ok) ?_
      refine Tri.pure ⟨none, 0, by simp, by rw [ev, if_pos hl]; rfl, by simp, by rw [finishLeak, if_pos hl]; rfl, by simp⟩
    · have hl : ¬ (true = true ∧ lookupPeer w.device z.2.s.pid = none) := by rw [lookupPeer_eq hr, hf]; simp
      have hmem := List.mem_of_find?_eq_some hf
      have hb : n.body ≤ snB z + (devAll dvp r istr w.d prlg pub ns + X) := by
        refine le_trans (Mem.body_le hmem) ?_
        refine le_trans ?_ (Multiset.le_add_left _ _)
        exact le_trans (Multiset.le_add_left _ _) (Multiset.le_add_right _ _)
      have hnm : n.e.name ≠ [] := hn n.e (by rw [hr.peers]; exact List.mem_map_of_mem hmem)
      simp only [hf, Option.map_some, Option.getD_some]
      intro h x
      rw [if_neg (x.ne (Multiset.mem_of_le hb (peer_mem_body n)))]
      revert h x
      change Tri h0 _ _ _
      unfold peerGetInfo
      simp only [bind_assoc]
      refine Tri.read (fun h x => x.loadPeer (Multiset.mem_of_le hb (peer_mem_body n))) ?_
      refine Tri.read (fun h x => x.loadStr (Multiset.mem_of_le hb (info_mem_body n))) ?_
      refine Tri.read (fun h x => x.storedStr (hr.nodes n hmem) (le_trans (str_le_body n) hb)) ?_
      refine Tri.copyStr (hr.nodes n hmem).2 fun p ho => ?_
      intro h x
      have hp : p ≠ 0 := x.ne (b := .bytes (n.e.name ++ [0])) (by simp [strBlock, hnm])
      rw [if_neg hp]
      revert h x
      change Tri h0 _ _ _
      refine Tri.read (fun h x => x.storedStr ho (Multiset.le_add_right _ _)) ?_
      exact Tri.freeStr' ho rfl (rd hl)

theorem NRep.finish (s : NRep h0 h dvp nm w v ts K U) (log : Bool) (i : ℕ) (msg : Bytes) :
    StepOk h0 h dvp nm ts (.finish log i msg) (v.step (.finish log i msg)) := by
  simp only [Vals.step, s.slots, ld_map]
  rcases ht : ts[i]? with _ | t
  · exact fun _ => ⟨.oob, by simp only [Spec.PeerNoise.stepAt, run_bind, ldAddr, ht]; rfl⟩
  have hat : ld (addrs ts) i = .ok t.2.1 := by rw [ldAddr, ht]
  have hrun : ∀ {x h'}, finishNoiseAt log dvp t.2.1 msg h = .ok (x, h') →
      Spec.PeerNoise.stepAt dvp (addrs ts) (.finish log i msg) h = .ok ((.ret x none, addrs ts), h') := by
    intro x h' e
    simp only [Spec.PeerNoise.stepAt, run_bind, liftC_ok h hat, C.ok_bind, e, run_pure]
  have hm : t ∈ ts := List.mem_of_getElem? ht
  have hsl := s.slot t hm
  obtain ⟨r, istr, ns, hr, hst⟩ := s.rep
  obtain ⟨p, q, o⟩ := t
  cases p with
  | uninit => cases o <;> exact hsl.elim
  | null =>
    cases o with
    | some z => exact hsl.elim
    | none =>
      obtain rfl : q = 0 := hsl
      simp only [C.ok_bind, finishNoise, Ptr.deref, finishLeak]
      exact ⟨h, w, ts, K, U, hrun (x := 1) (h' := h) (by simp only [finishNoiseAt, if_true, run_pure]), s.same ht⟩
  | freed =>
    cases o with
    | some z => exact hsl.elim
    | none =>
      obtain ⟨g1, g2, g3⟩ := hsl
      simp only [C.ok_bind, finishNoise, Ptr.deref, C.ub_bind]
      intro _
      obtain ⟨u, hu⟩ := finishNoiseAt_freed g1 g3 log dvp msg
      exact ⟨u, by simp only [Spec.PeerNoise.stepAt, run_bind, liftC_ok h hat, C.ok_bind, hu, C.ub_bind]⟩
  | live sn =>
    cases o with
    | none => exact hsl.elim
    | some z =>
      obtain ⟨rfl, ha⟩ := hsl
      simp only at ha
      have hzok := s.ok _ hm z rfl
      have hsp := s.split ht rfl hr
      obtain ⟨x, h', L', e, s', o, V, ok', ev, hx, hV, rfl⟩ := finishNoiseAt_tri hzok hr s.names log msg h hsp
      rw [s.dev] at ev hV
      simp only [C.ok_bind, ev]
      refine ⟨h', w, ts.set i (ptrV o, q, o), K, U + V, ?_, ?_⟩
      · rw [addrs_set (t := (Ptr.live z.2.s, q, some z)) ht]
        exact hrun (by rw [← ha]; exact e)
      · refine s.put ht rfl (fun t st => st.keep (keeps_finishNoiseAt _ _ _ _) e) hr hst o ok' (fun ho => ?_) V hV s'
        refine ⟨lt_of_lt_of_le (snB_lt hsp) (keeps_finishNoiseAt _ _ _ _ _ _ _ e).1, ?_⟩
        exact frees_finishNoiseAt hzok.ne log dvp msg _ _ _ e (snB_lt hsp) (hx.mp ho)

theorem NRep.key (s : NRep h0 h dvp nm w v ts K U) (i : ℕ) : StepOk h0 h dvp nm ts (.key i) (v.step (.key i)) := by
  simp only [Vals.step, s.slots, ld_map]
  rcases ht : ts[i]? with _ | t
  · exact fun _ => ⟨.oob, by simp only [Spec.PeerNoise.stepAt, run_bind, ldAddr, ht]; rfl⟩
  have hat : ld (addrs ts) i = .ok t.2.1 := by rw [ldAddr, ht]
  have hm : t ∈ ts := List.mem_of_getElem? ht
  have hsl := s.slot t hm
  obtain ⟨r, istr, ns, hr, hst⟩ := s.rep
  have hub : ∀ {c : C (Option Bytes × Heap)}, getKey t.2.1 h = c → (∃ u, c = .ub u) →
      ∃ u, Spec.PeerNoise.stepAt dvp (addrs ts) (.key i) h = .ub u := by
    rintro c e ⟨u, rfl⟩
    exact ⟨u, by simp only [Spec.PeerNoise.stepAt, keyNoiseAt, run_bind, liftC_ok h hat, C.ok_bind, e, C.ub_bind]⟩
  obtain ⟨p, q, o⟩ := t
  cases p with
  | uninit => cases o <;> exact hsl.elim
  | null =>
    cases o with
    | some z => exact hsl.elim
    | none =>
      obtain rfl : q = 0 := hsl
      simp only [C.ok_bind, keyAt, Ptr.deref, C.ub_bind]
      exact fun _ => hub rfl (by unfold getKey; exact bind_ub ⟨.null, rfl⟩)
  | freed =>
    cases o with
    | some z => exact hsl.elim
    | none =>
      obtain ⟨g1, g2, g3⟩ := hsl
      simp only [C.ok_bind, keyAt, Ptr.deref, C.ub_bind]
      exact fun _ => hub rfl (getKey_freed g3)
  | live sn =>
    cases o with
    | none => exact hsl.elim
    | some z =>
      obtain ⟨rfl, ha⟩ := hsl
      simp only at ha
      have hzok := s.ok _ hm z rfl
      have hsp := s.split ht rfl hr
      have hk := getKey_read hzok hsp
      rw [ha] at hk
      simp only [C.ok_bind, keyAt, Ptr.deref]
      rcases hg : sessionGetKey z.2.s with _ | k
      · simp only [C.ub_bind]
        refine fun _ => ⟨.null, ?_⟩
        simp only [Spec.PeerNoise.stepAt, keyNoiseAt, run_bind, liftC_ok h hat, C.ok_bind, hk, hg, Option.map_none]
        rfl
      · simp only [C.ok_bind]
        refine ⟨h, w, ts, K, U, ?_, s⟩
        simp only [Spec.PeerNoise.stepAt, keyNoiseAt, run_bind, liftC_ok h hat, C.ok_bind, hk, hg, Option.map_some, run_pure]

theorem NRep.free (s : NRep h0 h dvp nm w v ts K U) (i : ℕ) : StepOk h0 h dvp nm ts (.free i) (v.step (.free i)) := by
  simp only [Vals.step, s.slots, ld_map]
  rcases ht : ts[i]? with _ | t
  · exact fun _ => ⟨.oob, by simp only [Spec.PeerNoise.stepAt, run_bind, ldAddr, ht]; rfl⟩
  have hat : ld (addrs ts) i = .ok t.2.1 := by rw [ldAddr, ht]
  have hrun : ∀ {h'}, freeSlotAt t.2.1 h = .ok ((), h') →
      Spec.PeerNoise.stepAt dvp (addrs ts) (.free i) h = .ok ((.freed, addrs ts), h') := by
    intro h' e
    simp only [Spec.PeerNoise.stepAt, run_bind, liftC_ok h hat, C.ok_bind, e, run_pure]
  have hm : t ∈ ts := List.mem_of_getElem? ht
  have hsl := s.slot t hm
  obtain ⟨r, istr, ns, hr, hst⟩ := s.rep
  obtain ⟨p, q, o⟩ := t
  cases p with
  | uninit => cases o <;> exact hsl.elim
  | null =>
    cases o with
    | some z => exact hsl.elim
    | none =>
      obtain rfl : q = 0 := hsl
      simp only [C.ok_bind, Ptr.free]
      exact ⟨h, w, ts, K, U, hrun (by simp [freeSlotAt, run_pure]), s.same ht⟩
  | freed =>
    cases o with
    | some z => exact hsl.elim
    | none =>
      obtain ⟨g1, g2, g3⟩ := hsl
      simp only [C.ok_bind, Ptr.free, C.ub_bind]
      intro _
      obtain ⟨u, hu⟩ := sessionFree_freed g3
      refine ⟨u, ?_⟩
      simp only at g1
      simp only [Spec.PeerNoise.stepAt, run_bind, liftC_ok h hat, C.ok_bind, freeSlotAt, ne_eq, g1, not_false_eq_true, if_true, hu,
        C.ub_bind]
  | live sn =>
    cases o with
    | none => exact hsl.elim
    | some z =>
      obtain ⟨rfl, ha⟩ := hsl
      simp only at ha
      have hzok := s.ok _ hm z rfl
      have hsp := s.split ht rfl hr
      obtain ⟨h', e, s', -⟩ := sessionFree_drop hzok h hsp
      simp only [C.ok_bind, Ptr.free]
      refine ⟨h', w, ts.set i (ptrV none, q, none), K, U + 0, ?_, ?_⟩
      · rw [addrs_set (t := (Ptr.live z.2.s, q, some z)) ht]
        refine hrun ?_
        simp only
        rw [freeSlotAt, if_pos (by rw [← ha]; exact hzok.ne), ← ha]
        exact e
      · refine s.put ht rfl (fun t st => st.keep (keeps_sessionFree _) e) hr hst none (fun z hz => by cases hz) (fun ho => ?_) 0 rfl
          (by simpa using s')
        exact ⟨lt_of_lt_of_le (snB_lt hsp) (keeps_sessionFree _ _ _ _ e).1, ends_sessionFree hzok.ne _ _ _ e⟩

theorem createResponder_dev {epriv : B32} {o : Option Session} {dv : Noise.Device}
    (e : createResponder w.device epriv = (o, dv)) :
    dv = if o.isSome then ({ w with next := w.next + 1 } : World).device else w.device := by
  unfold createResponder at e
  split at e <;> · injection e with e1 e2; subst e1 e2; rfl

theorem createInitiator_dev {pid : UInt32} {epriv : B32} {o : Option Session} {dv : Noise.Device}
    (e : createInitiator w.device pid epriv = (o, dv)) :
    dv = if o.isSome then ({ w with next := w.next + 1 } : World).device else w.device := by
  unfold createInitiator at e
  split at e
  · injection e with e1 e2; subst e1 e2; rfl
  · split at e <;> · injection e with e1 e2; subst e1 e2; rfl

theorem helloV_ne (s : Session) : (helloV 3 s).1 ≠ 1 := by
  unfold helloV
  rcases sessionWrite (pack 0 []) s with ⟨rc, out, sn⟩
  simp only
  split
  · decide
  · split <;> simp

theorem addrs_put {i : ℕ} {p : Ptr Session} {q : ℕ} {o : Option (SnPtr × Sn)} :
    addrs (ts.set i (p, q, o)) = (addrs ts).set i q := by
  unfold addrs
  rw [List.map_set]

theorem slot_new {h' : Heap} {o : Option (SnPtr × Sn)} {q : ℕ} (hq : q ≠ 0) (hl : q < h'.next)
    (ho : ∀ z', o = some z' → z'.1.a = q) (hn : o = none → h'.mem q = none) : SlotOk h' (ptrV o, q, o) := by
  cases o with
  | none => exact ⟨hq, hl, hn rfl⟩
  | some z => exact ⟨rfl, ho z rfl⟩

theorem NRep.respond (s : NRep h0 h dvp nm w v ts K U) (i : ℕ) (inmsg : Bytes) (epriv : B32) :
    StepOk h0 h dvp nm ts (.respond i inmsg epriv) (v.step (.respond i inmsg epriv)) := by
  simp only [Vals.step, s.slots, ld_map]
  rcases ht : ts[i]? with _ | t
  · exact fun _ => ⟨.oob, by simp only [Spec.PeerNoise.stepAt, run_bind, ldAddr, ht]; rfl⟩
  have hat : ld (addrs ts) i = .ok t.2.1 := by rw [ldAddr, ht]
  have hrun : ∀ {x h'}, respondNoiseAt dvp inmsg epriv h = .ok (x, h') →
      Spec.PeerNoise.stepAt dvp (addrs ts) (.respond i inmsg epriv) h = .ok ((.ret x.1 x.2.2, (addrs ts).set i x.2.1), h') := by
    intro x h' e
    simp only [Spec.PeerNoise.stepAt, run_bind, liftC_ok h hat, C.ok_bind, e, run_pure]
  obtain ⟨r, istr, ns, hr, hst⟩ := s.rep
  obtain ⟨a, h1, e1, hm⟩ := hr.createResp rfl w rfl rfl hst epriv
  simp only [C.ok_bind, respondNoise_eq, respondLeak]
  rw [← s.dev]
  rcases hc : createResponder w.device epriv with ⟨_ | sn, dv⟩
  · rw [hc] at hm
    obtain ⟨rfl, rfl⟩ := hm
    obtain rfl := createResponder_dev hc
    refine ⟨h1, w, ts.set i (.null, 0, none), t.2.2.toList ++ K, U + 0, ?_, ?_⟩
    · rw [addrs_put]
      exact hrun (x := (1, 0, none)) (by rw [respondNoiseAt_eq, run_bind, e1, C.ok_bind, if_pos rfl, run_pure])
    · exact s.over ht rfl rfl s.names rfl (fun _ x => x) .null 0 none rfl (by simp) 0 rfl
        ⟨r, istr, ns, by simpa using hr, hst⟩
  · rw [hc] at hm
    obtain ⟨-, x, hx, hok, hr'⟩ := hm
    subst hx
    obtain rfl := createResponder_dev hc
    have hs1 : Sep h0 h1 (snB (x, ⟨sn, w.next, w.d.name, [], false⟩) +
        (devAll dvp { r with states := w.next + 1 } istr w.d w.prologue (xbase w.d.spriv).toList ns +
          (allB (ts.map (·.2.2)) + (lostB K + U)))) := by
      convert hr'.sep using 1
      simp only [devAll]
      abel
    obtain ⟨y, h2, L', e2, s2, hy, o, V, ok', ev, hxo, hV, rfl⟩ := respTail_tri hok (devIn hr') inmsg h1 hs1
    simp only at hy ev hV
    have e : respondNoiseAt dvp inmsg epriv h = .ok (y, h2) := by
      rw [respondNoiseAt_eq, run_bind, e1, C.ok_bind, if_neg hok.ne]
      exact e2
    have hev : respV ({ w with next := w.next + 1 } : World).device.peers sn inmsg = (y.1, ptrV o, y.2.2) := ev.symm
    simp only [Option.isSome_some, if_true, hev]
    refine ⟨h2, { w with next := w.next + 1 }, ts.set i (ptrV o, y.2.1, o), t.2.2.toList ++ K, U + V, ?_, ?_⟩
    · rw [addrs_put]
      exact hrun e
    · refine s.over ht (w' := { w with next := w.next + 1 }) rfl rfl s.names rfl
        (fun _ st => st.keep (keeps_respondNoiseAt _ _ _) e) (ptrV o) y.2.1 o ?_ (fun z hz => (ok' z hz).1) V hV ?_
      · rw [hy]
        refine slot_new hok.ne (lt_of_lt_of_le (snB_lt hs1) (keeps_respTail _ _ _ _ _ e2).1) (fun z hz => (ok' z hz).2) fun ho => ?_
        exact frees_respTail hok.ne inmsg _ _ _ e2 (snB_lt hs1) (hxo.mp ho)
      · refine ⟨_, istr, ns, hr'.with ?_, rfl⟩
        convert s2 using 1
        simp only [devAll]
        abel

theorem NRep.init (s : NRep h0 h dvp nm w v ts K U) (i k : ℕ) (rpk epriv : B32) :
    StepOk h0 h dvp nm ts (.init i k rpk epriv) (v.step (.init i k rpk epriv)) := by
  simp only [Vals.step, s.slots, ld_map]
  rcases ht : ts[i]? with _ | t
  · exact fun _ => ⟨.oob, by simp only [Spec.PeerNoise.stepAt, run_bind, ldAddr, ht]; rfl⟩
  have hat : ld (addrs ts) i = .ok t.2.1 := by rw [ldAddr, ht]
  have hrun : ∀ {x h'}, initNoiseAt dvp t.2.1 (rname k) rpk epriv h = .ok (x, h') →
      Spec.PeerNoise.stepAt dvp (addrs ts) (.init i k rpk epriv) h = .ok ((.ret x.1 x.2.2, (addrs ts).set i x.2.1), h') := by
    intro x h' e
    simp only [Spec.PeerNoise.stepAt, run_bind, liftC_ok h hat, C.ok_bind, e, run_pure]
  obtain ⟨r0, istr0, ns0, hr0, hst0⟩ := s.rep
  obtain ⟨pp, h1, pi, e1, hadd, hid, hrep⟩ := hr0.addPeer (some (rname k)) rpk
  have hdv := device_add w (rname k) rpk
  rcases hd : w.d.add (some (rname k)) rpk with ⟨out, d1⟩
  rw [hd] at hadd hrep hdv
  simp only at hadd hrep
  subst hadd
  simp only at hdv
  have hd1 : d1.spriv = w.d.spriv ∧ d1.name = w.d.name ∧ ∀ e ∈ d1.peers, e.name ≠ [] := by
    unfold Dev.add at hd
    split at hd <;> injection hd with g1 g2 <;> subst g2
    · exact ⟨rfl, rfl, s.names⟩
    · refine ⟨rfl, rfl, ?_⟩
      intro e he
      rcases List.mem_cons.mp he with he | he
      · rw [he]; exact rname_ne k
      · exact s.names e he
  rw [hst0, ← hd1.1] at hrep
  simp only [C.ok_bind, initNoise_eq]
  rw [← s.dev, hdv]
  cases pi with
  | none =>
    have hpp : pp = 0 := by
      by_contra hne
      rw [readId, if_neg hne, run_bind] at hid
      obtain ⟨⟨q, h''⟩, -, hq⟩ := C.bind_eq_ok.mp hid
      rw [run_pure] at hq
      injection hq with hq
      injection hq with hq
      cases hq
    subst hpp
    simp only [if_true]
    have e : initNoiseAt dvp t.2.1 (rname k) rpk epriv h = .ok ((1, t.2.1, none), h1) := by
      rw [initNoiseAt_eq, run_bind, e1, C.ok_bind, if_pos rfl, run_pure]
    refine ⟨h1, { w with d := d1 }, ts, K, U, ?_, ?_⟩
    · have hset : (addrs ts).set i t.2.1 = addrs ts := by
        have := addrs_set ht (p := t.1) (o := t.2.2)
        rwa [addrs_put] at this
      have := hrun e
      rwa [hset] at this
    · refine ⟨rfl, hd1.2.1.trans s.name, hd1.2.2, rfl, fun t ht => (s.slot t ht).keep (keeps_initNoiseAt _ _ _ _ _) e, ?_, s.lost,
        s.leaked, ?_, hrep⟩
      · intro t ht z hz
        rw [hd1.1]; exact s.ok t ht z hz
      · intro z hz
        rw [hd1.1]; exact s.kept z hz
  | some pid =>
    have hpp : pp ≠ 0 := by
      rintro rfl
      rw [readId, if_pos rfl, run_pure] at hid
      injection hid with hid
      injection hid with hid
      cases hid
    have hpid : peerGetId pp h1 = .ok (pid, h1) := by
      rw [readId, if_neg hpp, run_bind] at hid
      obtain ⟨⟨q, h''⟩, hq1, hq⟩ := C.bind_eq_ok.mp hid
      rw [run_pure] at hq
      injection hq with hq
      injection hq with hq hq2
      injection hq with hq
      simp only at hq hq2
      subst hq hq2
      exact hq1
    obtain ⟨r, istr, ns, hr, hst⟩ := hrep
    obtain ⟨a, h2, e2, hm⟩ := hr.createInit rfl { w with d := d1 } rfl rfl hst pid epriv
    simp only
    rcases hc : createInitiator ({ w with d := d1 } : World).device pid epriv with ⟨_ | sn, dv⟩
    · rw [hc] at hm
      obtain ⟨rfl, rfl⟩ := hm
      obtain rfl := createInitiator_dev hc
      have e : initNoiseAt dvp t.2.1 (rname k) rpk epriv h = .ok ((2, 0, none), h2) := by
        rw [initNoiseAt_eq, run_bind, e1, C.ok_bind, if_neg hpp, run_bind, hpid, C.ok_bind, run_bind, e2, C.ok_bind, if_pos rfl,
          run_pure]
      simp only [show ¬ ((2 : Int) = 1) by decide, if_false]
      refine ⟨h2, { w with d := d1 }, ts.set i (.null, 0, none), t.2.2.toList ++ K, U + 0, ?_, ?_⟩
      · rw [addrs_put]
        exact hrun e
      · exact s.over ht (w' := { w with d := d1 }) rfl hd1.2.1 hd1.2.2 hd1.1
          (fun _ st => st.keep (keeps_initNoiseAt _ _ _ _ _) e) .null 0 none rfl (by simp) 0 rfl
          ⟨r, istr, ns, by simpa using hr, hst⟩
    · rw [hc] at hm
      obtain ⟨-, x, hx, hok, hr'⟩ := hm
      subst hx
      obtain rfl := createInitiator_dev hc
      have hs2 : Sep h0 h2 (snB (x, ⟨sn, w.next, d1.name, ({ w with d := d1 } : World).peerName pid, false⟩) +
          (devAll dvp { r with states := w.next + 1 } istr d1 w.prologue (xbase d1.spriv).toList ns +
            (allB (ts.map (·.2.2)) + (lostB K + U)))) := by
        convert hr'.sep using 1
        simp only [devAll]
        abel
      obtain ⟨y, h3, L', e3, s3, hy, o, ok', ev, hxo, rfl⟩ := hello_tri hok (e := 3) (by decide) h2 hs2
      simp only at hy ev
      have e : initNoiseAt dvp t.2.1 (rname k) rpk epriv h = .ok (y, h3) := by
        rw [initNoiseAt_eq, run_bind, e1, C.ok_bind, if_neg hpp, run_bind, hpid, C.ok_bind, run_bind, e2, C.ok_bind, if_neg hok.ne]
        exact e3
      have hne := helloV_ne sn
      simp only [← ev] at hne ⊢
      rw [if_neg hne]
      refine ⟨h3, { w with d := d1, next := w.next + 1 }, ts.set i (ptrV o, y.2.1, o), t.2.2.toList ++ K, U + 0, ?_, ?_⟩
      · rw [addrs_put]
        exact hrun e
      · refine s.over ht (w' := { w with d := d1, next := w.next + 1 }) rfl hd1.2.1 hd1.2.2 hd1.1
          (fun _ st => st.keep (keeps_initNoiseAt _ _ _ _ _) e) (ptrV o) y.2.1 o ?_ (fun z hz => by
            have := (ok' z hz).1; rwa [hd1.1] at this) 0 rfl ?_
        · rw [hy]
          refine slot_new hok.ne (lt_of_lt_of_le (snB_lt hs2) (keeps_hello _ _ _ _ _ e3).1) (fun z hz => (ok' z hz).2) fun ho => ?_
          exact frees_hello hok.ne _ _ _ e3 (snB_lt hs2) (hxo.mp ho)
        · refine ⟨_, istr, ns, hr'.with ?_, rfl⟩
          convert s3 using 1
          simp only [devAll]
          abel

theorem NRep.step (s : NRep h0 h dvp nm w v ts K U) (op : Spec.PeerNoise.Op) : StepOk h0 h dvp nm ts op (v.step op) := by
  cases op with
  | init i k rpk epriv => exact s.init i k rpk epriv
  | respond i inmsg epriv => exact s.respond i inmsg epriv
  | finish log i msg => exact s.finish log i msg
  | encrypt i input len => exact s.encrypt i input len
  | decrypt i input len => exact s.decrypt i input len
  | key i => exact s.key i
  | free i => exact s.free i

theorem NRep.run (s : NRep h0 h dvp nm w v ts K U) (ops : List Spec.PeerNoise.Op) :
    match v.run ops with
    | .ok (outs, v') => ∃ h' w' ts' K' U', Spec.PeerNoise.runAt dvp (addrs ts) ops h = .ok ((outs, addrs ts'), h') ∧
        NRep h0 h' dvp nm w' v' ts' K' U'
    | .ub _ => (∀ o ∈ ops, short o) → ∃ u, Spec.PeerNoise.runAt dvp (addrs ts) ops h = .ub u := by
  induction ops generalizing h w v ts K U with
  | nil => exact ⟨h, w, ts, K, U, rfl, s⟩
  | cons o os ih =>
    have h1 := s.step o
    simp only [Vals.run]
    rcases hv : v.step o with ⟨out, v1⟩ | u
    · rw [hv] at h1
      obtain ⟨h', w', ts', K', U', e1, s1⟩ := h1
      have h2 := ih s1
      simp only [C.ok_bind]
      rcases hv2 : v1.run os with ⟨outs, v2⟩ | u
      · rw [hv2] at h2
        obtain ⟨h'', w'', ts'', K'', U'', e2, s2⟩ := h2
        refine ⟨h'', w'', ts'', K'', U'', ?_, s2⟩
        simp only [Spec.PeerNoise.runAt, run_bind, e1, C.ok_bind, e2, run_pure]
      · rw [hv2] at h2
        intro hs
        obtain ⟨u', hu⟩ := h2 fun o ho => hs o (List.mem_cons_of_mem _ ho)
        exact ⟨u', by simp only [Spec.PeerNoise.runAt, run_bind, e1, C.ok_bind, hu, C.ub_bind]⟩
    · rw [hv] at h1
      simp only [C.ub_bind]
      intro hs
      obtain ⟨u', hu⟩ := h1 (hs o List.mem_cons_self)
      exact ⟨u', by simp only [Spec.PeerNoise.runAt, run_bind, hu, C.ub_bind]⟩

end

end Verif.Noise.Mem
