import Verif.Proofs.PeerFrame
import Verif.Proofs.PeerNext
import Verif.Proofs.PeerPtr
import Verif.Proofs.PeerNoise
import Verif.Proofs.Query
import Verif.Spec.PeerMem

/-!
# The Noise memory of a run of a peer
-/

set_option linter.unusedSectionVars false

namespace Verif

/-! ### What a received message leaves -/

namespace Noise

open Spec.PeerNoise

variable [Hashes] [NoiseCrypto]

/-- The session is in its handshake. -/
def Session.Opened (sn : Session) : Prop := ∃ s, sn.st = .handshake s

/-- The session is past the first message of its handshake. -/
def Session.Answered (sn : Session) : Prop := ∀ s, sn.st = .handshake s → s.step ≠ 0

/-- A message of 48 bytes has no text in a handshake. -/
theorem unfreed_opened {peers : List Peer} {sn : Session} {m : Bytes} (h : sn.Opened) (hm : m.length = 48) :
    unfreed 0 false (sessionRead peers sn m).2.1 = 0 := by
  obtain ⟨r, pid, st⟩ := sn
  obtain ⟨s, hs⟩ := h
  dsimp only at hs
  subst hs
  unfold sessionRead
  dsimp only
  split
  · rfl
  split
  · split
    · rfl
    · rename_i l hl
      split
      · rename_i p sn' he
        have h2 : s.step ≠ 2 := by
          intro h2
          rw [h2, hm] at hl
          simp [payloadLen] at hl
        have hp : p = [] := List.length_eq_zero_iff.mp (by have := handshakeRead_length he h2; omega)
        subst hp
        simp [unfreed, unpack]
      · rfl
  · rfl

/-- After the first message of the handshake every message has the level that `tpdkg_noise_decrypt` wants. -/
theorem unfreed_answered {peers : List Peer} {sn : Session} {m : Bytes} (h : sn.Answered) :
    unfreed 2 true (sessionRead peers sn m).2.1 = 0 := by
  obtain ⟨r, pid, st⟩ := sn
  have key : ∀ p : Bytes, unfreed 2 true (some ⟨.auth 2, p⟩) = 0 := by
    intro p
    simp [unfreed, unpack]
  unfold sessionRead
  dsimp only
  cases st with
  | transport t =>
    dsimp only
    split
    · split
      · exact key _
      · rfl
    · rfl
  | handshake s =>
    have h0 := h s rfl
    dsimp only
    split
    · rfl
    split
    · split
      · rfl
      · split
        · simp only [if_neg h0]; exact key _
        · rfl
    · rfl

theorem answered_read {peers : List Peer} {sn : Session} {m : Bytes} (h : sn.Answered) :
    (sessionRead peers sn m).2.2.Answered := by
  obtain ⟨r, pid, st⟩ := sn
  cases st with
  | transport t =>
    obtain ⟨t', ht⟩ := isTransport_read (peers := peers) (input := m) (sn := ⟨r, pid, .transport t⟩) ⟨t, rfl⟩
    intro s hs
    rw [ht] at hs
    cases hs
  | handshake s =>
    have h0 := h s rfl
    unfold sessionRead
    dsimp only
    split
    · exact h
    split
    · split
      · exact h
      · rename_i l hl
        rcases handshakeRead_cases peers r pid s m l with ⟨out, s', pid', e, h1, -⟩ | ⟨e, s', he, h1⟩
        · rw [e]
          dsimp only
          intro x hx
          dsimp only at hx
          split at hx
          · cases hx
          · cases hx; omega
        · rw [he]
          intro x hx
          cases hx
          omega
    · exact h

/-- A session that has written a message of its handshake is past the first message. -/
theorem answered_write {em : Encap} {sn : Session} (hs : (sessionWrite em sn).1.isSuccess = true) :
    (sessionWrite em sn).2.2.Answered := by
  obtain ⟨r, pid, st⟩ := sn
  cases st with
  | transport t =>
    obtain ⟨t', ht⟩ := isTransport_write (em := em) (sn := ⟨r, pid, .transport t⟩) ⟨t, rfl⟩
    intro s hs
    rw [ht] at hs
    cases hs
  | handshake s =>
    revert hs
    unfold sessionWrite
    dsimp only
    generalize (if s.step = 0 then 2 else if s.step = 1 then 1 else 5) = cl
    split
    · simp [RCode.isSuccess]
    split
    · simp [RCode.isSuccess]
    rename_i l hl
    split
    · rcases handshakeWrite_cases r pid s em.msg l with ⟨out, s', e, h1, -⟩ | ⟨e, s', he, h1⟩
      · rw [e]
        rintro - x hx
        dsimp only at hx
        split at hx
        · cases hx
        · cases hx; omega
      · rw [he]; simp [RCode.isSuccess]
    · simp [RCode.isSuccess]

/-- The first message does not end the handshake. -/
theorem opened_write {em : Encap} {sn : Session} {s : HS} (hs : sn.st = .handshake s) (h0 : s.step = 0) :
    (sessionWrite em sn).2.2.Opened := by
  obtain ⟨r, pid, st⟩ := sn
  dsimp only at hs
  subst hs
  unfold sessionWrite
  dsimp only
  generalize (if s.step = 0 then 2 else if s.step = 1 then 1 else 5) = cl
  split
  · exact ⟨s, rfl⟩
  split
  · exact ⟨s, rfl⟩
  rename_i l hl
  split
  · rcases handshakeWrite_cases r pid s em.msg l with ⟨out, s', e, h1, -⟩ | ⟨e, s', he, h1⟩
    · rw [e]
      dsimp only
      rw [if_neg (by omega)]
      exact ⟨s', rfl⟩
    · rw [he]; exact ⟨s', rfl⟩
  · exact ⟨s, rfl⟩

theorem createResponder_opened {dv dv' : Device} {e : B32} {sn : Session} (h : createResponder dv e = (some sn, dv')) :
    sn.Opened ∧ dv'.peers = dv.peers := by
  unfold createResponder at h
  split at h
  · cases h
  · cases h; exact ⟨⟨_, rfl⟩, rfl⟩

end Noise

namespace TpDkg

open H Wire Noise Spec.PeerNoise Spec.PeerMem

def Ptr.Opened (p : Ptr Session) : Prop := ∀ sn, p = .live sn → sn.Opened
def Ptr.Answered (p : Ptr Session) : Prop := ∀ sn, p = .live sn → sn.Answered

section
variable [Hashes] [NoiseCrypto]

theorem initNoise_opened {dv : Noise.Device} {slot : Ptr Session} {rpk e : B32} (h : isLive slot = false) :
    (initNoise dv slot rpk e).2.2.1.Opened := by
  unfold initNoise
  split
  · intro sn hs
    dsimp only at hs
    subst hs
    cases h
  split
  · intro sn hs; cases hs
  · rename_i sn dv2 hc
    have hst : ∃ s, sn.st = .handshake s ∧ s.step = 0 := by
      unfold createInitiator at hc
      split at hc
      · cases hc
      split at hc
      · cases hc
      · cases hc; exact ⟨_, rfl, rfl⟩
    obtain ⟨s, h1, h2⟩ := hst
    have := opened_write (em := pack 0 []) h1 h2
    rcases hw : sessionWrite (pack 0 []) sn with ⟨rc, out, sn'⟩
    rw [hw] at this
    dsimp only
    split
    · intro sn hs; cases hs
    split
    · intro sn hs; cases hs
    · intro sn hs; cases hs; exact this

theorem initNoise_peers {dv : Noise.Device} {slot : Ptr Session} {rpk e : B32} :
    (initNoise dv slot rpk e).2.1.peers.length ≤ dv.peers.length + 1 := by
  rw [Noise.Mem.initNoise_eq]
  have h1 : (deviceAddPeer dv rpk).2.peers.length ≤ dv.peers.length + 1 := by
    unfold deviceAddPeer; split <;> simp
  have h2 : ∀ (dv : Noise.Device) (pid : UInt32), (createInitiator dv pid e).2.peers = dv.peers := by
    intro dv pid; unfold createInitiator; split
    · rfl
    · split <;> rfl
  rcases hd : deviceAddPeer dv rpk with ⟨_ | pid, dv1⟩ <;> rw [hd] at h1
  · exact h1
  · have := h2 dv1 pid
    dsimp only at h1 ⊢
    rcases hc : createInitiator dv1 pid e with ⟨_ | sn, dv2⟩ <;> rw [hc] at this <;> dsimp only at this ⊢ <;> rw [this] <;> exact h1

theorem initNoise_one {dv : Noise.Device} {slot : Ptr Session} {rpk e : B32} (h : (initNoise dv slot rpk e).1 = 1) :
    (initNoise dv slot rpk e).2.2.1 = slot := by
  revert h
  unfold initNoise
  split
  · intro; rfl
  split
  · simp
  split
  dsimp only
  split
  · simp
  · split <;> simp

theorem respondNoise_answered {dv : Noise.Device} {m : Bytes} {e : B32} : (respondNoise dv m e).2.2.1.Answered := by
  have key : ∀ {em : Encap} {sn sn' : Session} {rc : RCode} {out : Option Bytes}, sessionWrite em sn = (rc, out, sn') →
      ¬ (!rc.isSuccess) = true → (Ptr.live sn').Answered := by
    intro em sn sn' rc out hw hrc x hx
    cases hx
    have := answered_write (em := em) (sn := sn) (by rw [hw]; simpa using hrc)
    rw [hw] at this
    exact this
  unfold respondNoise
  dsimp only
  repeat' split
  all_goals first
    | (intro sn hs; cases hs; done)
    | exact key rfl ‹_›

theorem respondNoise_peers {dv : Noise.Device} {m : Bytes} {e : B32} : (respondNoise dv m e).2.1.peers = dv.peers := by
  rw [Noise.Mem.respondNoise_eq]
  have : (createResponder dv e).2.peers = dv.peers := by
    unfold createResponder; split <;> rfl
  rcases hc : createResponder dv e with ⟨_ | sn, dv2⟩ <;> rw [hc] at this <;> exact this

theorem respondLeak_zero {dv : Noise.Device} {m : Bytes} {e : B32} (hm : m.length = 48) : respondLeak dv m e = 0 := by
  unfold respondLeak
  split
  · rfl
  · rename_i hc
    exact unfreed_opened (createResponder_opened hc).1 hm

theorem finishLeak_zero {log : Bool} {dv : Noise.Device} {slot : Ptr Session} {m : Bytes} (h : slot.Opened)
    (hm : m.length = 48) : finishLeak log dv slot m = 0 := by
  unfold finishLeak
  split
  · split
    · rfl
    · exact unfreed_opened (h _ rfl) hm
  · rfl

theorem decryptLeak_zero {dv : Noise.Device} {slot : Ptr Session} {m : Bytes} (h : slot.Answered) :
    decryptLeak dv slot m = 0 := by
  unfold decryptLeak
  split
  · split
    · rfl
    · exact unfreed_answered (h _ rfl)
  · rfl

theorem decryptNoise_answered {dv : Noise.Device} {slot slot' : Ptr Session} {m : Bytes} {l : ℕ} {r : Int}
    {o : Option Bytes} (h : slot.Answered) (hd : decryptNoise dv slot m l = .ok (r, slot', o)) : slot'.Answered := by
  cases slot with
  | uninit => cases hd
  | freed => cases hd
  | null => cases hd; exact h
  | live sn =>
    have := answered_read (peers := dv.peers) (m := m) (h sn rfl)
    unfold decryptNoise at hd
    rcases hw : sessionRead dv.peers sn m with ⟨rc, out, sn'⟩
    rw [hw] at this
    simp only [Ptr.deref, C.ok_bind, hw] at hd
    split at hd
    · cases hd; exact h
    have key : (Ptr.live sn').Answered := by
      intro x hx; cases hx; exact this
    split at hd
    · cases hd; exact key
    split at hd
    · cases hd; exact key
    split at hd
    · cases hd; exact key
    · cases hd; exact key

/-! ### Programs -/

theorem run_append {v v' v'' : Vals} {a b : List Op} {oa ob : List Out} (h : v.run a = .ok (oa, v'))
    (h' : v'.run b = .ok (ob, v'')) : v.run (a ++ b) = .ok (oa ++ ob, v'') := by
  induction a generalizing v oa with
  | nil => cases h; exact h'
  | cons o a ih =>
    simp only [Vals.run] at h
    obtain ⟨⟨out, v1⟩, h1, h⟩ := C.bind_eq_ok.mp h
    obtain ⟨⟨rs, v2⟩, h2, h⟩ := C.bind_eq_ok.mp h
    injection h with h; injection h with h3 h4; subst h3 h4
    simp only [List.cons_append, Vals.run, h1, C.ok_bind, ih h2]

theorem run_append_ub {v v' : Vals} {a b : List Op} {oa : List Out} {u : UB} (h : v.run a = .ok (oa, v'))
    (h' : v'.run b = .ub u) : v.run (a ++ b) = .ub u := by
  induction a generalizing v oa with
  | nil => cases h; exact h'
  | cons o a ih =>
    simp only [Vals.run] at h
    obtain ⟨⟨out, v1⟩, h1, h⟩ := C.bind_eq_ok.mp h
    obtain ⟨⟨rs, v2⟩, h2, h⟩ := C.bind_eq_ok.mp h
    injection h with h; injection h with h3 h4; subst h3 h4
    simp only [List.cons_append, Vals.run, h1, C.ok_bind, ih h2, C.ub_bind]

theorem run_one {v v' : Vals} {op : Op} {o : Out} (h : v.step op = .ok (o, v')) : v.run [op] = .ok ([o], v') := by
  simp only [Vals.run, h, C.ok_bind]

theorem run_cons {v v' v'' : Vals} {op : Op} {o : Out} {os : List Out} {ops : List Op} (h : v.step op = .ok (o, v'))
    (h' : v'.run ops = .ok (os, v'')) : v.run (op :: ops) = .ok (o :: os, v'') := by
  simp only [Vals.run, h, C.ok_bind, h']

/-- The state of a peer holds the device and the slots of `v`, and nothing has been lost or leaked. -/
structure Holds (n : ℕ) (sk : B32) (v : Vals) (x : PeerState) : Prop where
  dev : x.dev = .live v.dv
  slots : v.slots = x.outs ++ x.ins
  outs : x.outs.length = n
  ins : x.ins.length = n
  lost : v.lost = 0
  leaked : v.leaked = 0
  sk : x.noiseSk = sk
  peers : v.dv.peers.length ≤ n

/-- The same within a call that began in the state `c`. -/
structure At (c : PeerState) (v : Vals) (x : PeerState) : Prop extends Holds c.n.toNat c.noiseSk v x where
  shares : x.shares = c.shares
  mine : x.mine = c.mine

end

namespace Peer

/-- What `At` depends on. -/
def mem (c : PeerState) := (c.dev, c.outs, c.ins, c.noiseSk, c.shares, c.mine)

theorem mem_stamps : Stamps mem := ⟨fun _ _ _ => rfl, fun _ _ _ _ => rfl⟩

section
variable {α : Type} {c : PeerState} {v : Vals} {s : PRun}

theorem _root_.Verif.TpDkg.At.of_mem {x y : PeerState} (h : At c v x) (e : mem y = mem x) : At c v y := by
  simp only [mem, Prod.mk.injEq] at e
  obtain ⟨e1, e2, e3, e4, e5, e6⟩ := e
  exact ⟨⟨e1 ▸ h.dev, e2 ▸ e3 ▸ h.slots, e2 ▸ h.outs, e3 ▸ h.ins, h.lost, h.leaked, e4 ▸ h.sk, h.peers⟩, e5 ▸ h.shares, e6 ▸ h.mine⟩

/-- No early return. -/
def NoRet {α : Type} (m : H PRun α) : Prop := ∀ s, Wp m True (fun _ _ => False) (fun _ _ => True) s

theorem nr_get : NoRet (H.get : H PRun PRun) := fun _ => trivial
theorem nr_pure (a : α) : NoRet (pure a : H PRun α) := fun _ => trivial
theorem nr_modify (f : PRun → PRun) : NoRet (H.modify f) := fun _ => trivial
theorem nr_lift (x : C α) : NoRet (H.lift x : H PRun α) := fun _ => wp_lift_of trivial fun _ _ => trivial

theorem nr_bind {β : Type} {m : H PRun α} {f : α → H PRun β} (hm : NoRet m) (hf : ∀ a, NoRet (f a)) : NoRet (m >>= f) := by
  intro s
  rw [wp_bind]
  exact (hm s).mono id (fun _ _ h => h) fun a s' _ => hf a s'

theorem nr_ite {p : Prop} [Decidable p] {m m' : H PRun α} (h : NoRet m) (h' : NoRet m') :
    NoRet (if p then m else m') := by
  split
  · exact h
  · exact h'

macro "noret" : tactic => `(tactic| repeat' first
  | with_reducible exact nr_get
  | with_reducible exact nr_pure _
  | with_reducible exact nr_modify _
  | with_reducible exact nr_lift _
  | with_reducible apply nr_ite
  | with_reducible apply nr_bind
  | intro a
  | split)

theorem keepMem {V : α → Prop} {m : H PRun α} {E : Int → PRun → Prop} {Q : α → PRun → Prop}
    (hp : Pres (Keep mem) V m) (hn : NoRet m) (hQ : ∀ a s', mem s'.ctx = mem s.ctx → V a → Q a s') : Wp m True E Q s := by
  have h1 := hp s
  have h2 := hn s
  unfold Wp at *
  split
  · rename_i a s' e
    rw [e] at h1
    exact hQ a s' h1.1.1 h1.2
  · rename_i e
    rw [e] at h2
    exact h2.elim
  · trivial

theorem keepAt {V : α → Prop} {m : H PRun α} {E : Int → PRun → Prop} {Q : α → PRun → Prop} (h : At c v s.ctx)
    (hp : Pres (Keep mem) V m) (hn : NoRet m) (hQ : ∀ a s', At c v s'.ctx → V a → Q a s') : Wp m True E Q s :=
  keepMem hp hn fun a s' e hv => hQ a s' (h.of_mem e) hv

section
variable {E : Int → PRun → Prop} {Q : Unit → PRun → Prop} (h : At c v s.ctx)
include h

theorem at_dump {log : Bool} {buf : Bytes} {off len : ℕ} (hQ : ∀ s', At c v s'.ctx → Q () s') :
    Wp (dump log buf off len) True E Q s :=
  keepAt h (pres_dump _ _ _ _) (by unfold dump; noret) fun _ s' h _ => hQ s' h

theorem at_dumpOut {log : Bool} {off len : ℕ} (hQ : ∀ s', At c v s'.ctx → Q () s') :
    Wp (dumpOut log off len) True E Q s :=
  keepAt h (pres_dumpOut _ _ _) (by unfold dumpOut dump; noret) fun _ s' h _ => hQ s' h

theorem at_sigPkOf {i : ℕ} {Q : B32 → PRun → Prop} (hQ : ∀ a s', At c v s'.ctx → Q a s') :
    Wp (sigPkOf i) True E Q s :=
  keepAt h (pres_sigPkOf _) (by unfold sigPkOf; noret) fun a s' h _ => hQ a s' h

theorem at_recv [Signing] {clock : ℕ → UInt64} {input : Bytes} {off len : ℕ} {msgno rcp : UInt8} {pk : B32} {i : ℕ}
    {Q : Int → PRun → Prop} (hQ : ∀ r s', At c v s'.ctx → 0 ≤ r → Q r s') :
    Wp (recv clock input off len msgno rcp pk i) True E Q s :=
  keepAt h (pres_recv mem_stamps _ _ _ _ _ _ _ _) (by unfold recv setCtx; noret) fun a s' h hr => hQ a s' h hr.1

theorem at_recvTp [Signing] {clock : ℕ → UInt64} {input : Bytes} {msgno rcp : UInt8}
    {Q : Int → PRun → Prop} (hQ : ∀ r s', At c v s'.ctx → 0 ≤ r → Q r s') :
    Wp (recvTp clock input msgno rcp) True E Q s :=
  keepAt h (pres_recvTp mem_stamps _ _ _ _) (by unfold recvTp setCtx; noret) fun a s' h hr => hQ a s' h hr.1

theorem at_send [Signing] {clock : ℕ → UInt64} {off len : ℕ} {msgno rcp : UInt8} (hQ : ∀ s', At c v s'.ctx → Q () s') :
    Wp (send clock off len msgno rcp) True E Q s :=
  keepAt h (pres_send mem_stamps _ _ _ _ _) (by unfold send; noret) fun _ s' h _ => hQ s' h

theorem at_setOut {off : ℕ} {b : Bytes} (hQ : ∀ s', At c v s'.ctx → Q () s') : Wp (setOut off b) True E Q s :=
  keepAt h (pres_setOut _ _) (by unfold setOut; noret) fun _ s' h _ => hQ s' h

theorem at_setKeys {i : ℕ} {pk npk : B32} (hQ : ∀ s', At c v s'.ctx → Q () s') : Wp (setKeys i pk npk) True E Q s :=
  keepAt h (pres_setKeys (fun _ _ _ _ _ => rfl) _ _ _) (by unfold setKeys setCtx; noret) fun _ s' h _ => hQ s' h

theorem at_setCommitments {off : ℕ} {d : List B32} (hQ : ∀ s', At c v s'.ctx → Q () s') :
    Wp (setCommitments off d) True E Q s :=
  keepAt h (pres_setCommitments (fun _ _ _ => rfl) _ _) (by unfold setCommitments setCtx; noret) fun _ s' h _ => hQ s' h

theorem at_setXshare {i : ℕ} {x : Share} (hQ : ∀ s', At c v s'.ctx → Q () s') : Wp (setXshare i x) True E Q s :=
  keepAt h (pres_setXshare (fun _ _ _ => rfl) _ _) (by unfold setXshare setCtx; noret) fun _ s' h _ => hQ s' h

end

/-- A part of the program. -/
def Part (c : PeerState) [Hashes] [NoiseCrypto] (v0 : Vals) (full : List Op) (x : PeerState) : Prop :=
  ∃ pre, pre <+: full ∧ ∃ os v, v0.run pre = .ok (os, v) ∧ Holds c.n.toNat c.noiseSk v x

/-- The whole program. -/
def Whole (c : PeerState) [Hashes] [NoiseCrypto] (v0 : Vals) (full : List Op) (P : Vals → Prop) (x : PeerState) : Prop :=
  ∃ os v, v0.run full = .ok (os, v) ∧ At c v x ∧ P v

variable [Hashes] [NoiseCrypto]

theorem Part.nil {full : List Op} {x : PeerState} (h : At c v x) : Part c v full x :=
  ⟨[], List.nil_prefix, [], v, rfl, h.toHolds⟩

theorem wp_each {v0 : Vals} {n : ℕ} {f : ℕ → List Op} {body : ℕ → H PRun Unit} {P : ℕ → Vals → Prop}
    (h0 : At c v0 s.ctx) (hP : P 0 v0)
    (hb : ∀ i < n, ∀ v s, At c v s.ctx → P i v → Wp (body i) True (fun e s' => e ≠ 0 ∧ Part c v (f i) s'.ctx)
      (fun _ s' => Whole c v (f i) (P (i + 1)) s'.ctx) s) :
    Wp (forN n body) True (fun e s' => e ≠ 0 ∧ Part c v0 ((List.range n).flatMap f) s'.ctx)
      (fun _ s' => Whole c v0 ((List.range n).flatMap f) (P n) s'.ctx) s := by
  have hpre : ∀ i, i < n → (List.range i).flatMap f ++ f i <+: (List.range n).flatMap f := by
    intro i hi
    obtain ⟨k, rfl⟩ : ∃ k, n = i + 1 + k := ⟨n - (i + 1), by omega⟩
    refine ⟨((List.range k).map (i + 1 + ·)).flatMap f, ?_⟩
    rw [List.range_add (n := i + 1), List.range_succ]
    simp [List.flatMap_append]
  refine wp_forN (fun i s' => Whole c v0 ((List.range i).flatMap f) (P i) s'.ctx) ⟨[], v0, rfl, h0, hP⟩ ?_ fun _ h => h
  rintro i s1 hi ⟨os, v, hr, ha, hp⟩
  refine (hb i hi v s1 ha hp).mono id ?_ ?_
  · rintro _ s' ⟨he, pre, hpr, os', v', hr', h'⟩
    refine ⟨he, (List.range i).flatMap f ++ pre, ?_, _, v', run_append hr hr', h'⟩
    exact (List.prefix_append_right_inj _ |>.mpr hpr).trans (hpre i hi)
  · rintro _ s' ⟨os', v', hr', h'⟩
    refine ⟨os ++ os', v', ?_, h'⟩
    rw [List.range_succ, List.flatMap_append]
    simpa using run_append hr hr'

theorem wm_copy {E : Int → PRun → Prop} {Q : Unit → PRun → Prop} (off : ℕ) (m : Option Bytes)
    (h : ∀ o, Q () { s with out := o }) : Wp (copy off m) True E Q s := by
  cases m with
  | none => exact h s.out
  | some m =>
    show Wp (setOut off m) _ _ _ _
    unfold setOut
    rw [wp_bind, wp_get, wp_bind]
    refine wp_lift_of trivial fun o ho => ?_
    rw [wp_modify]
    exact h o

theorem wm_getDev {E : Int → PRun → Prop} {Q : Noise.Device → PRun → Prop} (h : At c v s.ctx) (hQ : Q v.dv s) :
    Wp getDev True E Q s := by
  unfold getDev
  rw [wp_bind, wp_get, h.dev]
  exact hQ

theorem ld_eq {β : Type} {l : List β} {i : ℕ} {a : β} (h : ld l i = .ok a) : ∃ hi : i < l.length, l[i] = a := by
  unfold ld at h
  split at h
  · rename_i b hb
    cases h
    exact List.getElem?_eq_some_iff.mp hb
  · cases h

theorem st_eq {β : Type} {l l' : List β} {i : ℕ} {a : β} (h : st l i a = .ok l') : i < l.length ∧ l' = l.set i a := by
  unfold st at h
  split at h
  · cases h; exact ⟨‹_›, rfl⟩
  · cases h

theorem _root_.Verif.TpDkg.At.ldOut {x : PeerState} (h : At c v x) {i : ℕ} {p : Ptr Session} (hp : ld x.outs i = .ok p) :
    ld v.slots i = .ok p := by
  obtain ⟨hi, rfl⟩ := ld_eq hp
  rw [h.slots, ld_ok (by rw [List.length_append]; omega), List.getElem_append_left hi]

theorem _root_.Verif.TpDkg.At.ldIn {x : PeerState} (h : At c v x) {i : ℕ} {p : Ptr Session} (hp : ld x.ins i = .ok p) :
    ld v.slots (c.n.toNat + i) = .ok p := by
  obtain ⟨hi, rfl⟩ := ld_eq hp
  rw [h.slots, ld_ok (by rw [List.length_append, h.outs]; omega), List.getElem_append_right (by rw [h.outs]; omega)]
  simp [h.outs]

/-- A new device and a new pointer in `noise_outs`. -/
theorem _root_.Verif.TpDkg.At.setOut {x : PeerState} (h : At c v x) {i : ℕ} {l : List (Ptr Session)} {p : Ptr Session}
    (hl : l = x.outs.set i p) (hi : i < x.outs.length) {dv : Noise.Device} (hd : dv.peers.length ≤ c.n.toNat) {v' : Vals}
    (hv : v' = ⟨dv, v.slots.set i p, 0, 0⟩) :
    At c v' { x with dev := .live dv, outs := l } := by
  subst hl hv
  refine ⟨⟨rfl, ?_, by simp [h.outs], h.ins, rfl, rfl, h.sk, hd⟩, h.shares, h.mine⟩
  show v.slots.set i p = x.outs.set i p ++ x.ins
  rw [h.slots, List.set_append_left _ _ hi]

theorem _root_.Verif.TpDkg.At.setIn {x : PeerState} (h : At c v x) {i : ℕ} {l : List (Ptr Session)} {p : Ptr Session}
    (hl : l = x.ins.set i p) {dv : Noise.Device} (hd : dv.peers.length ≤ c.n.toNat) {v' : Vals}
    (hv : v' = ⟨dv, v.slots.set (c.n.toNat + i) p, 0, 0⟩) :
    At c v' { x with dev := .live dv, ins := l } := by
  subst hl hv
  refine ⟨⟨rfl, ?_, h.outs, by simp [h.ins], rfl, rfl, h.sk, hd⟩, h.shares, h.mine⟩
  show v.slots.set (c.n.toNat + i) p = x.outs ++ x.ins.set i p
  rw [h.slots, List.set_append_right _ _ (by rw [h.outs]; omega), h.outs]
  simp

/-- An operation on slot `k` that stores a pointer with the property `S`. -/
def Did (c : PeerState) (v : Vals) (op : Op) (k : ℕ) (S : Ptr Session → Prop) (x : PeerState) : Prop :=
  ∃ o p dv, v.step op = .ok (o, ⟨dv, v.slots.set k p, 0, 0⟩) ∧ S p ∧ At c ⟨dv, v.slots.set k p, 0, 0⟩ x ∧
    dv.peers.length ≤ v.dv.peers.length + 1

theorem wp_initSession {E : Int → PRun → Prop} {rpk e : B32} {i k off : ℕ} (h : At c v s.ctx)
    (hs : ∀ p, v.slots[i]? = some p → isLive p = false) (hp : v.dv.peers.length < c.n.toNat) :
    Wp (initSession rpk e i off) True E (fun _ s' => Did c v (.init i k rpk e) i Ptr.Opened s'.ctx) s := by
  unfold initSession
  rw [wp_bind]
  refine wm_getDev h ?_
  rw [wp_bind, wp_get, wp_bind]
  refine wp_lift_of trivial fun slot hslot => ?_
  have hl := h.ldOut hslot
  obtain ⟨hi, hg⟩ := ld_eq hl
  have hlive := hs slot (by rw [← hg]; exact List.getElem?_eq_getElem hi)
  dsimp only
  rw [wp_bind, wp_setCtx, wp_bind]
  unfold setOuts
  rw [wp_bind, wp_get, wp_bind]
  refine wp_lift_of trivial fun l hl' => ?_
  obtain ⟨hio, hl'⟩ := st_eq hl'
  rw [wp_setCtx]
  refine wm_copy _ _ fun o => ?_
  have hpe : (initNoise v.dv slot rpk e).2.1.peers.length ≤ v.dv.peers.length + 1 := initNoise_peers
  refine ⟨.ret (initNoise v.dv slot rpk e).1 (initNoise v.dv slot rpk e).2.2.2, (initNoise v.dv slot rpk e).2.2.1,
    (initNoise v.dv slot rpk e).2.1, ?_, initNoise_opened hlive, h.setOut hl' hio (by omega) rfl, hpe⟩
  simp only [Vals.step, hl, C.ok_bind]
  by_cases h1 : (initNoise v.dv slot rpk e).1 = 1
  · rw [if_pos h1, initNoise_one h1]
    have : v.slots.set i slot = v.slots := by rw [← hg]; simp
    rw [this, h.lost, h.leaked]
  · rw [if_neg h1]
    simp only [Vals.over, hlive, h.lost, h.leaked]
    rfl

theorem wp_respondSession {E : Int → PRun → Prop} {e : B32} {m : Bytes} {i off : ℕ} (h : At c v s.ctx)
    (hs : ∀ p, v.slots[c.n.toNat + i]? = some p → isLive p = false) (hm : m.length = 48) :
    Wp (respondSession e m i off) True E
      (fun _ s' => Did c v (.respond (c.n.toNat + i) m e) (c.n.toNat + i) Ptr.Answered s'.ctx) s := by
  unfold respondSession
  rw [wp_bind]
  refine wm_getDev h ?_
  dsimp only
  rw [wp_bind, wp_setCtx, wp_bind]
  unfold setIns
  rw [wp_bind, wp_get, wp_bind]
  refine wp_lift_of trivial fun l hl' => ?_
  obtain ⟨hio, hl'⟩ := st_eq hl'
  dsimp only at hio hl'
  have hslot := ld_ok hio
  have hl := h.ldIn hslot
  obtain ⟨hi, hg⟩ := ld_eq hl
  have hlive := hs s.ctx.ins[i] (by rw [← hg]; exact List.getElem?_eq_getElem hi)
  rw [wp_setCtx]
  refine wm_copy _ _ fun o => ?_
  have hpe : (respondNoise v.dv m e).2.1.peers = v.dv.peers := respondNoise_peers
  refine ⟨.ret (respondNoise v.dv m e).1 (respondNoise v.dv m e).2.2.2, (respondNoise v.dv m e).2.2.1,
    (respondNoise v.dv m e).2.1, ?_, respondNoise_answered, h.setIn hl' (by rw [hpe]; exact h.peers) rfl, by rw [hpe]; omega⟩
  simp only [Vals.step, hl, C.ok_bind, Vals.over, hlive, h.lost, h.leaked, respondLeak_zero hm]
  rfl

theorem wp_finishSession {E : Int → PRun → Prop} {log : Bool} {m : Bytes} {i : ℕ} (h : At c v s.ctx)
    (hs : ∀ p, v.slots[i]? = some p → p.Opened) (hm : m.length = 48) :
    Wp (finishSession log m i) True E (fun _ s' => Did c v (.finish log i m) i (fun _ => True) s'.ctx) s := by
  unfold finishSession
  rw [wp_bind]
  refine wm_getDev h ?_
  rw [wp_bind, wp_get, wp_bind]
  refine wp_lift_of trivial fun slot hslot => ?_
  have hl := h.ldOut hslot
  obtain ⟨hi, hg⟩ := ld_eq hl
  have hop := hs slot (by rw [← hg]; exact List.getElem?_eq_getElem hi)
  rw [wp_bind]
  refine wp_lift_of trivial fun x hx => ?_
  obtain ⟨r, p⟩ := x
  dsimp only
  unfold setOuts
  rw [wp_bind, wp_get, wp_bind]
  refine wp_lift_of trivial fun l hl' => ?_
  obtain ⟨hio, hl'⟩ := st_eq hl'
  rw [wp_setCtx]
  refine ⟨.ret r none, p, v.dv, ?_, trivial, ?_, by omega⟩
  · simp only [Vals.step, hl, C.ok_bind, hx, Vals.put, h.lost, h.leaked, finishLeak_zero hop hm]
  · exact (h.setOut hl' hio h.peers rfl).of_mem (by simp only [mem, h.dev])

theorem wm_encrypt {E : Int → PRun → Prop} {p : Bytes} {off len i : ℕ} {code : Int} (h : At c v s.ctx)
    (hE : ∀ s' : PRun, Did c v (.encrypt i p len) i (fun _ => True) s'.ctx → E code s') :
    Wp (encrypt p off len i code) True E
      (fun _ s' => Did c v (.encrypt i p len) i (fun _ => True) s'.ctx) s := by
  unfold encrypt
  rw [wp_bind, wp_get, wp_bind]
  refine wp_lift_of trivial fun slot hslot => ?_
  have hl := h.ldOut hslot
  rw [wp_bind]
  refine wp_lift_of trivial fun x hx => ?_
  obtain ⟨r, q, m⟩ := x
  dsimp only
  rw [wp_bind]
  unfold setOuts
  rw [wp_bind, wp_get, wp_bind]
  refine wp_lift_of trivial fun l hl' => ?_
  obtain ⟨hio, hl'⟩ := st_eq hl'
  rw [wp_setCtx, wp_ite]
  have key : Did c v (.encrypt i p len) i (fun _ => True) { s.ctx with outs := l } := by
    refine ⟨.ret r m, q, v.dv, ?_, trivial, ?_, by omega⟩
    · simp only [Vals.step, hl, C.ok_bind, hx, Vals.put, h.lost, h.leaked]
    · exact (h.setOut hl' hio h.peers rfl).of_mem (by simp only [mem, h.dev])
  refine ⟨fun _ => hE _ key, fun _ => wm_copy _ _ fun o => key⟩

theorem wm_decrypt {E : Int → PRun → Prop} {p : Bytes} {len i : ℕ} {code : Int} (h : At c v s.ctx)
    (hs : ∀ p, v.slots[c.n.toNat + i]? = some p → p.Answered)
    (hE : ∀ s' : PRun, Did c v (.decrypt (c.n.toNat + i) p len) (c.n.toNat + i) Ptr.Answered s'.ctx → E code s') :
    Wp (decrypt p len i code) True E
      (fun _ s' => Did c v (.decrypt (c.n.toNat + i) p len) (c.n.toNat + i) Ptr.Answered s'.ctx) s := by
  unfold decrypt
  rw [wp_bind]
  refine wm_getDev h ?_
  rw [wp_bind, wp_get, wp_bind]
  refine wp_lift_of trivial fun slot hslot => ?_
  have hl := h.ldIn hslot
  obtain ⟨hi, hg⟩ := ld_eq hl
  have hop := hs slot (by rw [← hg]; exact List.getElem?_eq_getElem hi)
  rw [wp_bind]
  refine wp_lift_of trivial fun x hx => ?_
  obtain ⟨r, q, m⟩ := x
  dsimp only
  rw [wp_bind]
  unfold setIns
  rw [wp_bind, wp_get, wp_bind]
  refine wp_lift_of trivial fun l hl' => ?_
  obtain ⟨hio, hl'⟩ := st_eq hl'
  rw [wp_setCtx, wp_ite]
  have key : Did c v (.decrypt (c.n.toNat + i) p len) (c.n.toNat + i) Ptr.Answered { s.ctx with ins := l } := by
    refine ⟨.ret r m, q, v.dv, ?_, decryptNoise_answered hop hx, ?_, by omega⟩
    · simp only [Vals.step, hl, C.ok_bind, hx, Vals.put, h.lost, h.leaked, decryptLeak_zero hop]
    · exact (h.setIn hl' h.peers rfl).of_mem (by simp only [mem, h.dev])
  exact ⟨fun _ => hE _ key, fun _ => key⟩


theorem set_get {β : Type} {l : List β} {k j : ℕ} {p q : β} (h : (l.set k p)[j]? = some q) :
    (j = k ∧ q = p) ∨ (j ≠ k ∧ l[j]? = some q) := by
  rw [List.getElem?_set] at h
  split at h
  · split at h
    · cases h; exact .inl ⟨by omega, rfl⟩
    · cases h
  · exact .inr ⟨by omega, h⟩

theorem rd_eq {β : Type} {l m : List β} {off k : ℕ} (h : rd l off k = .ok m) : m = slice l off k ∧ m.length = k := by
  unfold rd at h
  split at h
  · cases h
    refine ⟨rfl, ?_⟩
    rw [List.length_take, List.length_drop]; omega
  · cases h

/-- One operation makes the whole program of an iteration. -/
theorem Did.whole {op : Op} {k : ℕ} {S : Ptr Session → Prop} {P : Vals → Prop} {x : PeerState}
    (h : Did c v op k S x) (hP : ∀ p dv, S p → dv.peers.length ≤ v.dv.peers.length + 1 → P ⟨dv, v.slots.set k p, 0, 0⟩) :
    ∃ v', At c v' x ∧ P v' ∧ ∃ o, v.step op = .ok (o, v') := by
  obtain ⟨o, p, dv, h1, h2, h3, h4⟩ := h
  exact ⟨_, h3, hP p dv h2 h4, o, h1⟩

variable [Signing] {clock : ℕ → UInt64} {log mlock : Bool} {scratch : B32} {rnd : Rnd} {input : Bytes}

/-- The slots from `i` on are NULL, and the first `n` hold no session that is past its handshake. -/
structure Fresh (n i : ℕ) (v : Vals) : Prop where
  null : ∀ j p, i ≤ j → v.slots[j]? = some p → p = .null
  opened : ∀ j p, j < n → v.slots[j]? = some p → p.Opened

theorem mem5Body {i : ℕ} (hi : i < c.n.toNat) (h : At c v s.ctx) (hf : Fresh c.n.toNat i v ∧ v.dv.peers.length ≤ i) :
    Wp (step5Body clock log rnd input i) True
      (fun e s' => e ≠ 0 ∧ Part c v [.init i i (toB32 (slice input (i * 175 + 254) 32)) (rnd.einit i)] s'.ctx)
      (fun _ s' => Whole c v [.init i i (toB32 (slice input (i * 175 + 254) 32)) (rnd.einit i)]
        (fun v => Fresh c.n.toNat (i + 1) v ∧ v.dv.peers.length ≤ i + 1) s'.ctx) s := by
  unfold step5Body
  dsimp only
  rw [wp_bind]
  refine at_dump h fun s h => ?_
  rw [wp_bind]
  refine wp_lift_of trivial fun pk _ => ?_
  rw [wp_bind]
  refine at_recv h fun r s h hr => ?_
  rw [wp_ite]
  refine ⟨fun h0 => ⟨by omega, Part.nil h⟩, fun _ => ?_⟩
  rw [wp_bind]
  refine wp_lift_of trivial fun npk hnpk => ?_
  obtain ⟨hnpk, -⟩ := rd_eq hnpk
  rw [show hdrSize + i * msg2Size + hdrSize + 32 = i * 175 + 254 by simp only [hdrSize, msg2Size]; omega] at hnpk
  subst hnpk
  rw [wp_bind]
  refine at_setKeys h fun s h => ?_
  rw [wp_bind]
  refine (wp_initSession (k := i) h (fun p hp => by rw [hf.1.null i p le_rfl hp]; rfl) (by omega)).mono id (fun _ _ h => h) ?_
  intro _ s hd
  obtain ⟨v', h', hP, o, ho⟩ := hd.whole (P := fun v => Fresh c.n.toNat (i + 1) v ∧ v.dv.peers.length ≤ i + 1) (by
    intro p dv hp hdv
    refine ⟨⟨fun j q hj hq => ?_, fun j q hj hq => ?_⟩, by dsimp only; omega⟩
    · rcases set_get hq with ⟨rfl, -⟩ | ⟨-, hq⟩
      · omega
      · exact hf.1.null j q (by omega) hq
    · rcases set_get hq with ⟨-, rfl⟩ | ⟨-, hq⟩
      · exact hp
      · exact hf.1.opened j q hj hq)
  rw [wp_bind]
  refine at_send h' fun s h' => ?_
  refine at_dumpOut h' fun s h' => ?_
  exact ⟨_, v', run_one ho, h', hP⟩

theorem mem7Body {i : ℕ} (h : At c v s.ctx)
    (hf : (∀ j p, c.n.toNat + i ≤ j → v.slots[j]? = some p → p = .null) ∧
      (∀ j p, j < c.n.toNat → v.slots[j]? = some p → p.Opened) ∧ ∀ j p, c.n.toNat ≤ j → v.slots[j]? = some p → p.Answered) :
    Wp (step7Body clock log rnd input i) True
      (fun e s' => e ≠ 0 ∧ Part c v [.respond (c.n.toNat + i) (slice input (i * 159 + 111) 48) (rnd.eresp i)] s'.ctx)
      (fun _ s' => Whole c v [.respond (c.n.toNat + i) (slice input (i * 159 + 111) 48) (rnd.eresp i)]
        (fun v => (∀ j p, c.n.toNat + (i + 1) ≤ j → v.slots[j]? = some p → p = .null) ∧
          (∀ j p, j < c.n.toNat → v.slots[j]? = some p → p.Opened) ∧
          ∀ j p, c.n.toNat ≤ j → v.slots[j]? = some p → p.Answered) s'.ctx) s := by
  unfold step7Body
  dsimp only
  rw [wp_bind]
  refine at_dump h fun s h => ?_
  rw [wp_bind]
  refine at_sigPkOf h fun pk s h => ?_
  rw [wp_bind, wp_get, wp_bind]
  refine at_recv h fun r s h hr => ?_
  rw [wp_ite]
  refine ⟨fun h0 => ⟨by omega, Part.nil h⟩, fun _ => ?_⟩
  rw [wp_bind]
  refine wp_lift_of trivial fun m hm => ?_
  obtain ⟨hm, hl⟩ := rd_eq hm
  rw [show i * msg4Size + hdrSize = i * 159 + 111 by rfl] at hm
  subst hm
  rw [wp_bind]
  refine (wp_respondSession h (fun p hp => by rw [hf.1 _ p le_rfl hp]; rfl) hl).mono id (fun _ _ h => h) ?_
  intro _ s hd
  obtain ⟨v', h', hP, o, ho⟩ := hd.whole (P := fun v => (∀ j p, c.n.toNat + (i + 1) ≤ j → v.slots[j]? = some p → p = .null) ∧
      (∀ j p, j < c.n.toNat → v.slots[j]? = some p → p.Opened) ∧
      ∀ j p, c.n.toNat ≤ j → v.slots[j]? = some p → p.Answered) (by
    intro p dv hp hdv
    refine ⟨fun j q hj hq => ?_, fun j q hj hq => ?_, fun j q hj hq => ?_⟩
    · rcases set_get hq with ⟨rfl, -⟩ | ⟨-, hq⟩
      · omega
      · exact hf.1 j q (by omega) hq
    · rcases set_get hq with ⟨rfl, -⟩ | ⟨-, hq⟩
      · omega
      · exact hf.2.1 j q hj hq
    · rcases set_get hq with ⟨-, rfl⟩ | ⟨-, hq⟩
      · exact hp
      · exact hf.2.2 j q hj hq)
  rw [wp_bind]
  refine at_send h' fun s h' => ?_
  refine at_dumpOut h' fun s h' => ?_
  exact ⟨_, v', run_one ho, h', hP⟩

theorem mem911Body {i : ℕ} (hi : i < c.n.toNat) (h : At c v s.ctx)
    (hf : (∀ j p, i ≤ j → j < c.n.toNat → v.slots[j]? = some p → p.Opened) ∧
      ∀ j p, c.n.toNat ≤ j → v.slots[j]? = some p → p.Answered) :
    Wp (step911Body clock log input i) True
      (fun e s' => e ≠ 0 ∧ Part c v [.finish log i (slice input (i * 159 + 111) 48)] s'.ctx)
      (fun _ s' => Whole c v [.finish log i (slice input (i * 159 + 111) 48)]
        (fun v => (∀ j p, i + 1 ≤ j → j < c.n.toNat → v.slots[j]? = some p → p.Opened) ∧
          ∀ j p, c.n.toNat ≤ j → v.slots[j]? = some p → p.Answered) s'.ctx) s := by
  unfold step911Body
  dsimp only
  rw [wp_bind]
  refine at_dump h fun s h => ?_
  rw [wp_bind]
  refine at_sigPkOf h fun pk s h => ?_
  rw [wp_bind, wp_get, wp_bind]
  refine at_recv h fun r s h hr => ?_
  rw [wp_ite]
  refine ⟨fun h0 => ⟨by omega, Part.nil h⟩, fun _ => ?_⟩
  rw [wp_bind]
  refine wp_lift_of trivial fun m hm => ?_
  obtain ⟨hm, hl⟩ := rd_eq hm
  rw [show i * msg5Size + hdrSize = i * 159 + 111 by rfl] at hm
  subst hm
  refine (wp_finishSession h (fun p hp => hf.1 i p le_rfl hi hp) hl).mono id (fun _ _ h => h) ?_
  intro _ s hd
  obtain ⟨v', h', hP, o, ho⟩ := hd.whole
    (P := fun v => (∀ j p, i + 1 ≤ j → j < c.n.toNat → v.slots[j]? = some p → p.Opened) ∧
      ∀ j p, c.n.toNat ≤ j → v.slots[j]? = some p → p.Answered) (by
    intro p dv hp hdv
    refine ⟨fun j q hj hj' hq => ?_, fun j q hj hq => ?_⟩
    · rcases set_get hq with ⟨rfl, -⟩ | ⟨-, hq⟩
      · omega
      · exact hf.1 j q (by omega) hj' hq
    · rcases set_get hq with ⟨rfl, -⟩ | ⟨-, hq⟩
      · omega
      · exact hf.2 j q hj hq)
  exact ⟨_, v', run_one ho, h', hP⟩

theorem step_key {x : PeerState} {i : ℕ} {slot : Ptr Session} {k : B32} (hl : ld v.slots i = .ok slot)
    (hk : keyAt slot = .ok k) : v.step (.key i) = .ok (.key k.toList, v) := by
  simp only [Vals.step, hl, C.ok_bind, hk]

/-- The sessions that were answered. -/
def Ans (n : ℕ) (v : Vals) : Prop := ∀ j p, n ≤ j → v.slots[j]? = some p → p.Answered

theorem mem13Body [Mac] {i : ℕ} {t : UInt8} (hi : i < c.n.toNat) (h : At c v s.ctx) (hf : Ans c.n.toNat v) :
    let sh := c.shares.getD i ⟨0, zero32⟩
    Wp (step13Body clock log input t i) True
      (fun e s' => e ≠ 0 ∧ Part c v [.encrypt i [] 64, .encrypt i (sh.index :: sh.value.toList) 49, .key i] s'.ctx)
      (fun _ s' => Whole c v [.encrypt i [] 64, .encrypt i (sh.index :: sh.value.toList) 49, .key i]
        (Ans c.n.toNat) s'.ctx) s := by
  intro sh
  have ans : ∀ {v : Vals}, Ans c.n.toNat v → ∀ p dv, True → dv.peers.length ≤ v.dv.peers.length + 1 →
      Ans c.n.toNat ⟨dv, v.slots.set i p, 0, 0⟩ := by
    intro v hf p dv _ _ j q hj hq
    rcases set_get hq with ⟨rfl, -⟩ | ⟨-, hq⟩
    · omega
    · exact hf j q hj hq
  unfold step13Body
  dsimp only
  rw [wp_bind]
  refine at_dump h fun s h => ?_
  rw [wp_bind]
  refine at_sigPkOf h fun pk s h => ?_
  rw [wp_bind]
  refine at_recv h fun r s h hr => ?_
  rw [wp_ite]
  refine ⟨fun h0 => ⟨by decide, Part.nil h⟩, fun _ => ?_⟩
  rw [wp_bind]
  refine wp_lift_of trivial fun d hd => ?_
  rw [wp_bind]
  refine at_setCommitments h fun s h => ?_
  rw [wp_bind]
  have hE1 : ∀ s' : PRun, Did c v (.encrypt i [] 64) i (fun _ => True) s'.ctx →
      (5 : Int) ≠ 0 ∧ Part c v [.encrypt i [] 64, .encrypt i (sh.index :: sh.value.toList) 49, .key i] s'.ctx := by
    intro s' hd
    obtain ⟨v', h', -, o, ho⟩ := hd.whole (P := fun _ => True) (fun _ _ _ _ => trivial)
    exact ⟨by decide, [.encrypt i [] 64], ⟨_, rfl⟩, _, v', run_one ho, h'.toHolds⟩
  refine (wm_encrypt h hE1).mono id (fun _ _ h => h) ?_
  intro _ s hd
  obtain ⟨v1, h1, hf1, o1, ho1⟩ := hd.whole (ans hf)
  rw [wp_bind, wp_get, wp_bind]
  refine wp_lift_of trivial fun share hshare => ?_
  have hsh : share = sh := by
    obtain ⟨hi', rfl⟩ := ld_eq hshare
    have e := h1.shares
    simp only [sh, ← e]
    simp [List.getD, hi']
  subst hsh
  rw [wp_bind]
  have hE2 : ∀ s' : PRun, Did c v1 (.encrypt i (shareBytes sh) 49) i (fun _ => True) s'.ctx →
      (6 : Int) ≠ 0 ∧ Part c v [.encrypt i [] 64, .encrypt i (sh.index :: sh.value.toList) 49, .key i] s'.ctx := by
    intro s' hd
    obtain ⟨v', h', -, o, ho⟩ := hd.whole (P := fun _ => True) (fun _ _ _ _ => trivial)
    exact ⟨by decide, [.encrypt i [] 64, .encrypt i (sh.index :: sh.value.toList) 49], ⟨_, rfl⟩, _, v',
      run_cons ho1 (run_one ho), h'.toHolds⟩
  refine (wm_encrypt h1 hE2).mono id (fun _ _ h => h) ?_
  intro _ s hd
  obtain ⟨v2, h2, hf2, o2, ho2⟩ := hd.whole (ans hf1)
  rw [wp_bind]
  unfold commitKey
  rw [wp_bind, wp_get, wp_bind]
  refine wp_lift_of trivial fun box _ => ?_
  rw [wp_bind]
  refine wp_lift_of trivial fun slot hslot => ?_
  rw [wp_bind]
  refine wp_lift_of trivial fun key hkey => ?_
  have ho3 := step_key (x := c) (h2.ldOut hslot) hkey
  refine at_setOut h2 fun s h2 => ?_
  rw [wp_bind]
  refine at_send h2 fun s h2 => ?_
  refine at_dumpOut h2 fun s h2 => ?_
  exact ⟨_, v2, run_cons ho1 (run_cons ho2 (run_one ho3)), h2, hf2⟩

theorem mem15Body [Mac] {i : ℕ} (h : At c v s.ctx) (hf : Ans c.n.toNat v) :
    Wp (step15Body clock log input i) True
      (fun e s' => e ≠ 0 ∧ Part c v [.decrypt (c.n.toNat + i) (slice input (i * 256 + 111) 64) 0, .key (c.n.toNat + i),
        .decrypt (c.n.toNat + i) (slice input (i * 256 + 175) 49) 33] s'.ctx)
      (fun _ s' => Whole c v [.decrypt (c.n.toNat + i) (slice input (i * 256 + 111) 64) 0, .key (c.n.toNat + i),
        .decrypt (c.n.toNat + i) (slice input (i * 256 + 175) 49) 33] (Ans c.n.toNat) s'.ctx) s := by
  have ans : ∀ {v : Vals}, Ans c.n.toNat v → ∀ p dv, p.Answered → dv.peers.length ≤ v.dv.peers.length + 1 →
      Ans c.n.toNat ⟨dv, v.slots.set (c.n.toNat + i) p, 0, 0⟩ := by
    intro v hf p dv hp _ j q hj hq
    rcases set_get hq with ⟨-, rfl⟩ | ⟨-, hq⟩
    · exact hp
    · exact hf j q hj hq
  unfold step15Body
  dsimp only
  rw [wp_bind]
  refine at_dump h fun s h => ?_
  rw [wp_bind]
  refine at_sigPkOf h fun pk s h => ?_
  rw [wp_bind, wp_get, wp_bind]
  refine at_recv h fun r s h hr => ?_
  rw [wp_ite]
  refine ⟨fun h0 => ⟨by omega, Part.nil h⟩, fun _ => ?_⟩
  rw [wp_bind]
  refine wp_lift_of trivial fun h3 hh3 => ?_
  obtain ⟨hh3, -⟩ := rd_eq hh3
  rw [show i * msg8Size + hdrSize = i * 256 + 111 by rfl] at hh3
  subst hh3
  rw [wp_bind]
  have hE1 : ∀ s' : PRun, Did c v (.decrypt (c.n.toNat + i) (slice input (i * 256 + 111) 64) 0) (c.n.toNat + i)
      Ptr.Answered s'.ctx → (4 : Int) ≠ 0 ∧ Part c v [.decrypt (c.n.toNat + i) (slice input (i * 256 + 111) 64) 0,
        .key (c.n.toNat + i), .decrypt (c.n.toNat + i) (slice input (i * 256 + 175) 49) 33] s'.ctx := by
    intro s' hd
    obtain ⟨v', h', -, o, ho⟩ := hd.whole (P := fun _ => True) (fun _ _ _ _ => trivial)
    exact ⟨by decide, [_], ⟨_, rfl⟩, _, v', run_one ho, h'.toHolds⟩
  refine (wm_decrypt h (fun p hp => hf _ p (by omega) hp) hE1).mono id (fun _ _ h => h) ?_
  intro _ s hd
  obtain ⟨v1, h1, hf1, o1, ho1⟩ := hd.whole (ans hf)
  rw [wp_bind]
  refine wp_lift_of trivial fun mac _ => ?_
  rw [wp_bind]
  refine wp_lift_of trivial fun box hbox => ?_
  obtain ⟨hbox, -⟩ := rd_eq hbox
  rw [show i * msg8Size + hdrSize + 64 = i * 256 + 175 by rfl] at hbox
  subst hbox
  rw [wp_bind, wp_get, wp_bind]
  refine wp_lift_of trivial fun slot hslot => ?_
  rw [wp_bind]
  refine wp_lift_of trivial fun key hkey => ?_
  have ho2 := step_key (x := c) (h1.ldIn hslot) hkey
  rw [wp_ite]
  refine ⟨fun _ => ⟨by decide, [_, _], ⟨_, rfl⟩, _, v1, run_cons ho1 (run_one ho2), h1.toHolds⟩, fun _ => ?_⟩
  rw [wp_bind]
  have hE2 : ∀ s' : PRun, Did c v1 (.decrypt (c.n.toNat + i) (slice input (i * 256 + 175) 49) 33) (c.n.toNat + i)
      Ptr.Answered s'.ctx → (6 : Int) ≠ 0 ∧ Part c v [.decrypt (c.n.toNat + i) (slice input (i * 256 + 111) 64) 0,
        .key (c.n.toNat + i), .decrypt (c.n.toNat + i) (slice input (i * 256 + 175) 49) 33] s'.ctx := by
    intro s' hd
    obtain ⟨v', h', -, o, ho⟩ := hd.whole (P := fun _ => True) (fun _ _ _ _ => trivial)
    exact ⟨by decide, [_, _, _], ⟨_, rfl⟩, _, v', run_cons ho1 (run_cons ho2 (run_one ho)), h'.toHolds⟩
  refine (wm_decrypt h1 (fun p hp => hf1 _ p (by omega) hp) hE2).mono id (fun _ _ h => h) ?_
  intro plain s hd
  obtain ⟨v2, h2, hf2, o3, ho3⟩ := hd.whole (ans hf1)
  refine at_setXshare h2 fun s h2 => ?_
  exact ⟨_, v2, run_cons ho1 (run_cons ho2 (run_one ho3)), h2, hf2⟩

theorem mem17aBody {i : ℕ} (h : At c v s.ctx) (hf : Ans c.n.toNat v) :
    Wp (step17aBody i) True
      (fun e s' => e ≠ 0 ∧ Part c v [.key ((c.mine.getD i 0).toNat - 1)] s'.ctx)
      (fun _ s' => Whole c v [.key ((c.mine.getD i 0).toNat - 1)] (Ans c.n.toNat) s'.ctx) s := by
  unfold step17aBody
  rw [wp_bind, wp_get, wp_bind]
  refine wp_lift_of trivial fun y hy => ?_
  have hyy : y = c.mine.getD i 0 := by
    obtain ⟨hi', rfl⟩ := ld_eq hy
    have e := h.mine
    simp only [← e]
    simp [List.getD, hi']
  subst hyy
  have houts := h.outs
  dsimp only
  have hs : ∀ {slot}, ld s.ctx.outs ((c.mine.getD i 0).toNat - 1) = .ok slot → ld v.slots ((c.mine.getD i 0).toNat - 1) = .ok slot :=
    fun hslot => h.ldOut hslot
  rw [wp_bind]
  refine at_setOut h fun s h => ?_
  rw [wp_ite]
  refine ⟨fun _ => wp_lift_of trivial (fun _ h => by cases h), fun _ => ?_⟩
  rw [wp_bind]
  refine wp_lift_of trivial fun slot hslot => ?_
  rw [wp_bind]
  refine wp_lift_of trivial fun key hkey => ?_
  have ho := step_key (x := c) (hs hslot) hkey
  refine at_setOut h fun s h => ?_
  exact ⟨_, v, run_one ho, h, hf⟩

end

end Peer

end TpDkg

end Verif
