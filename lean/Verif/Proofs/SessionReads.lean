import Verif.Proofs.SessionCalls

/-!
# Received messages on the heap
-/

set_option linter.unusedSectionVars false

namespace Verif.Noise.Mem

open NoiseCrypto Spec.Device Spec.SessionMem

/-! ### Received messages -/

/-- The peer's name on the heap: right once the peer is known, and absent while a responder waits for it. -/
def PeerOk (s : Session) (peer pname : Bytes) : Prop :=
  (s.pid ≠ 0 → pname = peer) ∧
  (s.role = .responder → ∀ x, s.st = .handshake x → s.pid = 0 ∧ (x.step < 4 → pname = [])) ∧
  (s.role = .initiator → s.pid ≠ 0) ∧
  ((∃ t, s.st = .transport t) → s.pid ≠ 0)

/-- A session with its peer's name and an output buffer. -/
def coreOut (a : ℕ) (rec : SessionRec) (spriv spub : B32) (st : SState) (pstr : ℕ) (pname : Bytes) (out : ℕ) (b : Bytes)
    (L : Blocks) : Blocks :=
  core a rec spriv spub st + ({(rec.pinfo, .str pstr)} + (strBlock pstr pname + (prlgBlock out b + L)))

/-- After a message was read. -/
def RdPost (a : ℕ) (rec : SessionRec) (spriv spub : B32) (heard : Bool) (sn : Session) (d : Dev) (peer : Bytes)
    (out n : ℕ) (L : Blocks) (r : Except Err Bytes × Session) (x : Option Err) (L' : Blocks) : Prop :=
  ∃ st' pstr' pname', StOk { rec with pid := r.2.pid, st := st' } spriv spub heard r.2.st ∧ r.2.role = sn.role ∧
    StrOk pstr' pname' ∧ PeerOk r.2 (if sn.pid = 0 then nameOf d r.2.pid else peer) pname' ∧
    match r.1 with
    | .error e => x = some e ∧ ∃ b : Bytes, b.length = n ∧
        L' = coreOut a { rec with pid := r.2.pid, st := st' } spriv spub r.2.st pstr' pname' out b L
    | .ok m => x = none ∧ m.length = n ∧
        L' = coreOut a { rec with pid := r.2.pid, st := st' } spriv spub r.2.st pstr' pname' out m L

section
variable [Hashes] [NoiseCrypto] {h0 : Heap} {L : Blocks} {rec : SessionRec} {spriv spub : B32} {heard : Bool}
  {sn : Session} {a : ℕ} {dvp : ℕ} {d : Dev} {r : DeviceRec} {istr : ℕ} {prlg pub : Bytes} {ns : List Node}
  {pstr : ℕ} {pname peer : Bytes}

theorem nameOf_zero (i : IdsOk d) : nameOf d 0 = [] := by
  unfold nameOf
  have : (d.peers.find? fun e => decide (e.id = 0)) = none := by
    rw [List.find?_eq_none]
    intro e he
    have := (i.lt e he).1
    simp only [decide_eq_true_eq]
    intro h
    rw [h] at this
    exact absurd this (by decide)
  rw [this]; rfl

theorem stateHandshakeRead_tri {p : HsPtr} {s : HS} (hst : rec.st = .handshake p) (hs : sn.st = .handshake s)
    (hok : StOk rec spriv spub heard sn.st) (hrole : rec.role = sn.role) (hpid : rec.pid = sn.pid)
    (hstr : StrOk pstr pname) (hpeer : PeerOk sn peer pname) (hdv : rec.dv = dvp)
    (i : DevIn L dvp d r istr prlg pub ns) {input old : Bytes} {out plen : ℕ} (ho : old.length = plen) :
    Tri h0 (coreOut a rec spriv spub sn.st pstr pname out old L) (stateHandshakeRead plen out a input)
      (RdPost a rec spriv spub heard sn d peer out plen L
        (handshakeRead (d.peers.map fun e => ⟨e.id, e.key⟩) sn input plen)) := by
  unfold stateHandshakeRead handshakeRead
  simp only [StOk, hst, hs] at hok
  obtain ⟨h1, h2, h3, h4, h5, h6⟩ := hok
  have hblk : stBlocks rec spriv spub sn.st = hsBlocks p s := by simp [stBlocks, hst, hs]
  refine Tri.read (fun h x => x.loadSession (x := rec) (by simp [coreOut, core])) ?_
  refine Tri.alloc _ fun pidp _ => ?_
  simp only [hst, hs, bind_assoc, hrole, h1, hpid]
  -- the end after an error
  have finErr : ∀ (s' : HS) (e : Err) (b : Bytes) (q : ℕ) (t : Bytes) (w : UInt32), Same s s' → b.length = plen →
      StrOk q t → PeerOk { sn with st := .handshake { s' with step := 4 } }
        (if sn.pid = 0 then nameOf d sn.pid else peer) t →
      Tri h0 (hsBlocks p s' + (prlgBlock out b + ({(rec.pinfo, .str q)} + ({(pidp, .word w)} + (strBlock q t +
        ({(a, .session rec)} + L))))))
        (Mem.free pidp >>= fun _ => finish a (.error e))
        (RdPost a rec spriv spub heard sn d peer out plen L (.error e, { sn with st := .handshake { s' with step := 4 } })) := by
    intro s' e b q t w hsame hb hq hpo
    refine Tri.free (b := .word w) (L1 := {(a, .session rec)} + (hsBlocks p s' + ({(rec.pinfo, .str q)} +
      (strBlock q t + (prlgBlock out b + L))))) (by abel) ?_
    refine Tri.mono (finish_error hst e) ?_
    rintro _ _ ⟨rfl, rfl⟩
    refine ⟨.handshake { p with step := 4 }, q, t, ⟨rfl, h2, h3, hsame.1.trans h4, hsame.2.trans h5, h6⟩, rfl, hq, hpo, rfl, b,
      hb, ?_⟩
    simp only [coreOut, core, stBlocks, ← hpid]
    exact (add_assoc _ _ _).symm
  -- the end after success before the third message
  have finOk : ∀ (s' : HS) (m : Bytes) (w : UInt32), Same s s' → s'.step = s.step + 1 → m.length = plen →
      PeerOk { sn with pid := sn.pid, st := .handshake s' } (if sn.pid = 0 then nameOf d sn.pid else peer) pname →
      Tri h0 (hsBlocks p s' + (prlgBlock out m + ({(rec.pinfo, .str pstr)} + ({(pidp, .word w)} + (strBlock pstr pname +
        ({(a, .session rec)} + L))))))
        (Mem.free pidp >>= fun _ => finish a (.ok { rec with role := sn.role, pid := sn.pid, st := .handshake { p with step := p.step + 1 } }))
        (RdPost a rec spriv spub heard sn d peer out plen L (.ok m, { sn with pid := sn.pid, st := .handshake s' })) := by
    intro s' m w hsame hstep hm hpo
    refine Tri.free (b := .word w) (L1 := {(a, .session rec)} + (hsBlocks p s' + ({(rec.pinfo, .str pstr)} +
      (strBlock pstr pname + (prlgBlock out m + L))))) (by abel) ?_
    refine Tri.mono (finish_ok _) ?_
    rintro _ _ ⟨rfl, rfl⟩
    refine ⟨.handshake { p with step := p.step + 1 }, pstr, pname,
      ⟨by simp only; omega, h2, h3, hsame.1.trans h4, hsame.2.trans h5, h6⟩, rfl, hstr, hpo, rfl, hm, ?_⟩
    simp only [coreOut, core, stBlocks, hrole]
    exact (add_assoc _ _ _).symm
  have hstart : {(pidp, Block.word sn.pid)} + coreOut a rec spriv spub (.handshake s) pstr pname out old L =
      hsBlocks p s + (prlgBlock out old + ({(rec.pinfo, .str pstr)} + ({(pidp, .word sn.pid)} + (strBlock pstr pname +
        ({(a, .session rec)} + L))))) := by
    rw [← hs]
    simp only [coreOut, core, hblk]; abel
  rw [hstart]
  -- the name stays right if the session gets stuck
  have stuckOk : ∀ s' : HS, PeerOk { sn with st := .handshake { s' with step := 4 } }
      (if sn.pid = 0 then nameOf d sn.pid else peer) pname := by
    intro s'
    refine ⟨fun hp => ?_, fun hr x hx => ⟨(hpeer.2.1 hr s hs).1, fun hlt => ?_⟩, hpeer.2.2.1,
      fun ⟨_, ht⟩ => by cases ht⟩
    · simp only at hp
      rw [if_neg hp]; exact hpeer.1 hp
    · injection hx with hx
      subst hx
      simp only at hlt
      omega
  by_cases c3 : s.step ≥ 3
  · simp only [c3, if_true, pure_bind]
    exact finErr s _ old pstr pname sn.pid ⟨rfl, rfl⟩ ho hstr (stuckOk s)
  · simp only [c3, if_false]
    cases hr : sn.role with
    | initiator =>
      have hpne := hpeer.2.2.1 hr
      simp only
      by_cases c1 : s.step % 2 = 1
      · simp only [c1, not_true_eq_false, if_false]
        refine Tri.bind (initRead1_tri ho) ?_
        intro x L' hx
        generalize initRead1 s input plen = y at hx ⊢
        obtain ⟨res, s'⟩ := y
        obtain ⟨hsame, hx⟩ := hx
        cases res with
        | error e =>
          obtain ⟨rfl, b, hb, rfl⟩ := hx
          simp only [pure_bind]
          have := finErr s' e b pstr pname sn.pid hsame hb hstr (stuckOk s')
          rwa [hr] at this
        | ok m =>
          obtain ⟨rfl, hstep, hm, rfl⟩ := hx
          have hne : ¬ s.step = 2 := by omega
          simp only [hne, not_false_eq_true, if_true, if_false, pure_bind]
          have := finOk s' m sn.pid hsame hstep hm
            ⟨fun hp => by rw [if_neg hpne]; exact hpeer.1 hpne, fun h => (by rw [hr] at h; cases h), fun _ => hpne,
              fun _ => hpne⟩
          rwa [hr] at this
      · simp only [c1, not_false_eq_true, if_true, pure_bind]
        have := finErr s .incorrectTransition old pstr pname sn.pid ⟨rfl, rfl⟩ ho hstr (stuckOk s)
        rwa [hr] at this
    | responder =>
      obtain ⟨hp0, hpn⟩ := hpeer.2.1 hr s hs
      have hpn := hpn (by omega)
      have hq0 := hstr.1 hpn
      subst hpn hq0
      simp only
      by_cases c1 : s.step % 2 = 1
      · simp only [c1, if_true, pure_bind]
        have := finErr s .incorrectTransition old 0 [] sn.pid ⟨rfl, rfl⟩ ho hstr (stuckOk s)
        rwa [hr] at this
      · simp only [c1, if_false]
        have i' := i.mono (L' := {(a, Block.session rec)} + L) (Multiset.le_add_left _ _)
        have i'' : DevIn (hsBlocks p s + (prlgBlock out old + ({(rec.pinfo, .str 0)} + ({(pidp, .word sn.pid)} +
            (strBlock 0 [] + ({(a, .session rec)} + L)))))) dvp d r istr prlg pub ns :=
          i'.mono (le_trans (Multiset.le_add_left _ _) (le_trans (Multiset.le_add_left _ _) (le_trans (Multiset.le_add_left _ _)
            (le_trans (Multiset.le_add_left _ _) (Multiset.le_add_left _ _)))))
        subst hdv
        simp only [bind_assoc]
        refine Tri.read (fun h x => x.loadDevice (d := r) (Multiset.mem_of_le i''.dev (by simp [devBlocks]))) ?_
        by_cases c0 : s.step = 0
        · simp only [c0, if_true]
          refine Tri.bind (respRead0_tri ho) ?_
          intro x L' hx
          generalize respRead0 s input plen = y at hx ⊢
          obtain ⟨res, s'⟩ := y
          obtain ⟨hsame, hx⟩ := hx
          cases res with
          | error e =>
            obtain ⟨rfl, b, hb, rfl⟩ := hx
            simp only [pure_bind]
            have := finErr s' e b 0 [] sn.pid hsame hb hstr (stuckOk s')
            rwa [hr] at this
          | ok m =>
            obtain ⟨rfl, hstep, hm, rfl⟩ := hx
            simp only [OfNat.zero_ne_ofNat, not_false_eq_true, if_true, if_false, pure_bind]
            have := finOk s' m sn.pid hsame hstep hm
              ⟨fun hp => absurd hp0 hp, fun _ x hx => ⟨hp0, fun _ => rfl⟩, fun h => (by rw [hr] at h; cases h),
                fun ⟨_, ht⟩ => by cases ht⟩
            rwa [hr] at this
        · have c2 : s.step = 2 := by omega
          simp only [c2, OfNat.ofNat_ne_zero, if_false]
          have e0 : hsBlocks p s + (prlgBlock out old + ({(rec.pinfo, Block.str 0)} + ({(pidp, .word sn.pid)} +
              (strBlock 0 [] + ({(a, .session rec)} + L))))) = hsBlocks p s + (prlgBlock out old + ({(rec.pinfo, .str 0)} +
              ({(pidp, .word sn.pid)} + ({(a, .session rec)} + L)))) := by simp [strBlock]
          rw [e0]
          refine Tri.bind (respRead2_tri i' ho) ?_
          intro x L' hx
          generalize respRead2 (d.peers.map fun e => ⟨e.id, e.key⟩) s input plen = y at hx ⊢
          obtain ⟨res, s'⟩ := y
          obtain ⟨hsame, hx⟩ := hx
          cases res with
          | error e =>
            obtain ⟨rfl, b, q, t, w, hb, hq, rfl⟩ := hx
            simp only [pure_bind]
            have := finErr s' e b q t w hsame hb hq
              ⟨fun hp => absurd hp0 hp, fun _ x hx => ⟨hp0, fun hlt => by injection hx with hx; subst hx; simp only at hlt; omega⟩,
                fun h => (by rw [hr] at h; cases h), fun ⟨_, ht⟩ => by cases ht⟩
            rwa [hr] at this
          | ok v =>
            obtain ⟨m, pid⟩ := v
            obtain ⟨rfl, hstep, hm, hpid0, q, hq, rfl⟩ := hx
            simp only [not_true_eq_false, if_false, if_true, bind_assoc, pure_bind]
            refine Tri.read (fun h x => x.loadWord (n := pid) (by simp)) ?_
            refine Tri.bind (splitAt_tri (p := { p with step := p.step + 1 }) (s := s') .responder) ?_
            rintro st L' ⟨qt, rfl, n1, n2, n3, rfl⟩
            refine Tri.free (b := .word pid) (L1 := {(a, .session rec)} + (({(p.spriv, .bytes s'.spriv.toList)} +
              {(p.spub, .bytes s'.spub.toList)} + tsBlocks qt (split .responder s')) + ({(rec.pinfo, .str q)} +
              (strBlock q (nameOf d pid) + (prlgBlock out m + L))))) (by abel) ?_
            refine Tri.mono (finish_ok _) ?_
            rintro _ _ ⟨rfl, rfl⟩
            refine ⟨.transport qt, q, nameOf d pid, ⟨n1, n2, n3.trans h6.symm⟩, hr.symm, hq, ⟨fun _ => ?_, fun _ x hx => (by cases hx),
              fun h => (by cases h), fun _ => hpid0⟩, rfl, hm, ?_⟩
            · rw [if_pos hp0]
            · simp only at hsame
              simp only [coreOut, core, stBlocks, ← h2, ← h3, ← h4, ← h5, hsame.1, hsame.2, hrole, hr]
              exact (add_assoc _ _ _).symm

theorem stateTransportRead_tri {q : TsPtr} {t : TS} (hst : rec.st = .transport q) (hs : sn.st = .transport t)
    (hok : StOk rec spriv spub heard sn.st) (hpid : rec.pid = sn.pid)
    (hstr : StrOk pstr pname) (hpeer : PeerOk sn peer pname)
    {c old : Bytes} {out plen : ℕ} (ho : old.length = plen) :
    Tri h0 (coreOut a rec spriv spub sn.st pstr pname out old L) (stateTransportRead plen out c a)
      (RdPost a rec spriv spub (heard || (transportRead sn c plen).1.isOk) sn d peer out plen L (transportRead sn c plen)) := by
  have hpz := hpeer.2.2.2 ⟨t, hs⟩
  unfold stateTransportRead transportRead
  have hok' := hok
  simp only [StOk, hst, hs] at hok
  obtain ⟨h1, h2, h3⟩ := hok
  have hblk : stBlocks rec spriv spub sn.st = {(rec.spriv, .bytes spriv.toList)} + {(rec.spub, .bytes spub.toList)} +
      tsBlocks q t := by simp [stBlocks, hst, hs]
  refine Tri.read (fun h x => x.loadSession (x := rec) (by simp [coreOut, core])) ?_
  simp only [hst, hs, h2]
  rw [← hs]
  have fin : ∀ e : Err, Tri h0 (coreOut a rec spriv spub sn.st pstr pname out old L) (pure (some e))
      (RdPost a rec spriv spub (heard || (Except.error e : Except Err Bytes).isOk) sn d peer out plen L (.error e, sn)) := by
    intro e
    refine Tri.pure ⟨rec.st, pstr, pname, ?_, rfl, hstr, ?_, rfl, old, ho, ?_⟩
    · simp only [Except.isOk, Except.toBool, Bool.or_false, ← hpid]; exact hok'
    · rw [if_neg hpz]; exact hpeer
    · simp only [← hpid]
  split
  · exact fin _
  · rename_i hc
    split
    · exact fin _
    · refine Tri.read (fun h x => x.loadN (v := t.recvKey) (by simp [coreOut, core, hblk, tsBlocks])) ?_
      rw [toB32_toList]
      cases hd : aeadDec t.recvKey t.recvNonce [] c with
      | none => simp only; exact fin _
      | some m =>
        have hm := dec_length _ _ _ _ _ hd
        simp only
        refine Tri.writeBuf (old := old) (L1 := core a rec spriv spub sn.st + ({(rec.pinfo, .str pstr)} + (strBlock pstr pname + L)))
          (by simp only [coreOut]; abel) (by omega) ?_
        refine Tri.store (b := .session rec) _ (L1 := {(rec.spriv, Block.bytes spriv.toList)} + {(rec.spub, .bytes spub.toList)} +
          tsBlocks q t + ({(rec.pinfo, .str pstr)} + (strBlock pstr pname + (prlgBlock out m + L))))
          (by simp only [core, hblk]; abel) ?_
        refine Tri.pure ⟨.transport { q with heard := true, recvNonce := t.recvNonce + 1 }, pstr, pname, ⟨h1, rfl, ?_⟩, rfl, hstr, ?_, rfl,
          by omega, ?_⟩
        · simp [Except.isOk, Except.toBool]
        · rw [if_neg hpz]
          exact ⟨hpeer.1, fun _ x hx => (by cases hx), hpeer.2.2.1, fun _ => hpz⟩
        · simp only [coreOut, core, stBlocks, tsBlocks, ← hpid]
          exact (add_assoc _ _ _).symm

/-- After `session_read`. -/
def GetPost (a : ℕ) (rec : SessionRec) (spriv spub : B32) (heard : Bool) (sn : Session) (d : Dev) (peer : Bytes)
    (L : Blocks) (r : RCode × Option Encap × Session) (x : RCode × ℕ) (L' : Blocks) : Prop :=
  ∃ st' pstr' pname', StOk { rec with pid := r.2.2.pid, st := st' } spriv spub heard r.2.2.st ∧ r.2.2.role = sn.role ∧
    StrOk pstr' pname' ∧ PeerOk r.2.2 (if sn.pid = 0 then nameOf d r.2.2.pid else peer) pname' ∧ x.1 = r.1 ∧
    ((r.1.isSuccess = true ∧ ∃ em mp, r.2.1 = some em ∧ (em.msg = [] → mp = 0) ∧
        L' = core a { rec with pid := r.2.2.pid, st := st' } spriv spub r.2.2.st + ({(rec.pinfo, .str pstr')} +
          (strBlock pstr' pname' + ({(x.2, .encap em.level em.msg.length mp)} + (prlgBlock mp em.msg + L))))) ∨
      (r.1.isSuccess = false ∧ r.2.1 = none ∧
        L' = core a { rec with pid := r.2.2.pid, st := st' } spriv spub r.2.2.st + ({(rec.pinfo, .str pstr')} +
          (strBlock pstr' pname' + L))))

/-- The flag for received transport messages after a call. -/
def heardAfter (heard : Bool) (sn : Session) (rc : RCode) : Bool :=
  heard || match sn.st with
    | .transport _ => rc.isSuccess
    | .handshake _ => false

theorem sessionReadAt_tri (hok : StOk rec spriv spub heard sn.st) (hrole : rec.role = sn.role) (hpid : rec.pid = sn.pid)
    (hstr : StrOk pstr pname) (hpeer : PeerOk sn peer pname)
    (hdv : rec.dv = dvp) (i : DevIn L dvp d r istr prlg pub ns) (input : Bytes) :
    Tri h0 (core a rec spriv spub sn.st + ({(rec.pinfo, .str pstr)} + (strBlock pstr pname + L))) (sessionReadAt a input)
      (GetPost a rec spriv spub (heardAfter heard sn (sessionRead (d.peers.map fun e => ⟨e.id, e.key⟩) sn input).1) sn d peer L
        (sessionRead (d.peers.map fun e => ⟨e.id, e.key⟩) sn input)) := by
  unfold sessionReadAt sessionRead
  refine Tri.read (fun h x => x.loadSession (x := rec) (by simp [core])) ?_
  have same : ∀ (rc : RCode) (hd' : Bool), rc.isSuccess = false → hd' = heard →
      Tri h0 (core a rec spriv spub sn.st + ({(rec.pinfo, .str pstr)} + (strBlock pstr pname + L))) (pure (rc, 0))
      (GetPost a rec spriv spub hd' sn d peer L (rc, none, sn)) := by
    rintro rc _ hrc rfl
    refine Tri.pure ⟨rec.st, pstr, pname, ?_, rfl, hstr, ?_, rfl, .inr ⟨hrc, rfl, ?_⟩⟩
    · simp only [← hpid]; exact hok
    · refine ⟨fun hp => ?_, hpeer.2.1, hpeer.2.2⟩
      simp only at hp
      rw [if_neg hp]; exact hpeer.1 hp
    · simp only [← hpid]
  cases hs : sn.st with
  | transport t =>
    cases hst : rec.st with
    | handshake p => simp [StOk, hst, hs] at hok
    | transport q =>
      simp only
      rw [← hs]
      split
      · refine Tri.callocBuf fun out hout => ?_
        refine Tri.perm (L1 := coreOut a rec spriv spub sn.st pstr pname out (List.replicate (input.length - 16) 0) L)
          (by simp only [coreOut]; abel) ?_
        refine Tri.bind (stateTransportRead_tri (d := d) hst hs hok hpid hstr hpeer (by simp)) ?_
        intro x L' hx
        generalize transportRead sn input (input.length - 16) = y at hx ⊢
        obtain ⟨res, sn'⟩ := y
        obtain ⟨st', pstr', pname', g1, g2, g3, g4, hx⟩ := hx
        cases res with
        | error e =>
          obtain ⟨rfl, b, hb, rfl⟩ := hx
          simp only [Except.isOk, Except.toBool, Bool.or_false] at g1
          simp only
          refine Tri.freeBuf (p := out) (b := b) (fun h => hout (by
              have : input.length - 16 = 0 := by rw [← hb, h]; rfl
              rw [this]; rfl)) (L1 := core a { rec with pid := sn'.pid, st := st' } spriv spub sn'.st +
              ({(rec.pinfo, .str pstr')} + (strBlock pstr' pname' + L))) (by simp only [coreOut]; abel) ?_
          refine Tri.pure ⟨st', pstr', pname', ?_, g2, g3, g4, rfl, .inr ⟨rfl, rfl, rfl⟩⟩
          simpa [heardAfter, hs, RCode.isSuccess] using g1
        | ok m =>
          obtain ⟨rfl, hm, rfl⟩ := hx
          simp only [Except.isOk, Except.toBool] at g1
          simp only
          refine Tri.alloc _ fun em _ => ?_
          refine Tri.pure ⟨st', pstr', pname', ?_, g2, g3, g4, rfl, .inl ⟨rfl, ⟨.auth 2, m⟩, out, rfl, fun h => hout (by
              have : input.length - 16 = 0 := by simp only at h; rw [← hm, h]; rfl
              rw [this]; rfl), ?_⟩⟩
          · simpa [heardAfter, hs, RCode.isSuccess] using g1
          · simp only [coreOut, hm]; abel
      · exact same _ _ rfl (by simp [heardAfter, hs, RCode.isSuccess])
  | handshake s =>
    cases hst : rec.st with
    | transport q => simp [StOk, hst, hs] at hok
    | handshake p =>
      have hstep : p.step = s.step := by
        have := hok
        simp only [StOk, hst, hs] at this
        exact this.1
      have hh : ∀ rc, heardAfter heard sn rc = heard := by intro rc; simp [heardAfter, hs]
      simp only [hstep, hrole]
      rw [← hs]
      simp only [hh]
      split
      · exact same _ _ rfl rfl
      · split
        · cases hn : payloadLen s.step input.length with
          | none => exact same _ _ rfl rfl
          | some n =>
            simp only
            refine Tri.callocBuf fun out hout => ?_
            refine Tri.perm (L1 := coreOut a rec spriv spub sn.st pstr pname out (List.replicate n 0) L)
              (by simp only [coreOut]; abel) ?_
            refine Tri.bind (stateHandshakeRead_tri hst hs hok hrole hpid hstr hpeer hdv i (by simp)) ?_
            intro x L' hx
            generalize handshakeRead (d.peers.map fun e => ⟨e.id, e.key⟩) sn input n = y at hx ⊢
            obtain ⟨res, sn'⟩ := y
            obtain ⟨st', pstr', pname', g1, g2, g3, g4, hx⟩ := hx
            cases res with
            | error e =>
              obtain ⟨rfl, b, hb, rfl⟩ := hx
              simp only
              refine Tri.freeBuf (p := out) (b := b) (fun h => hout (by
                  have : n = 0 := by rw [← hb, h]; rfl
                  rw [this]; rfl)) (L1 := core a { rec with pid := sn'.pid, st := st' } spriv spub sn'.st +
                  ({(rec.pinfo, .str pstr')} + (strBlock pstr' pname' + L))) (by simp only [coreOut]; abel) ?_
              exact Tri.pure ⟨st', pstr', pname', g1, g2, g3, g4, rfl, .inr ⟨rfl, rfl, rfl⟩⟩
            | ok m =>
              obtain ⟨rfl, hm, rfl⟩ := hx
              simp only
              refine Tri.alloc _ fun em _ => ?_
              refine Tri.pure ⟨st', pstr', pname', g1, g2, g3, g4, rfl, .inl ⟨rfl, ⟨_, m⟩, out, rfl, fun h => hout (by
                  have : n = 0 := by simp only at h; rw [← hm, h]; rfl
                  rw [this]; rfl), ?_⟩⟩
              simp only [coreOut, hm]; abel
        · exact same _ _ rfl rfl

theorem recvAt_tri (hok : StOk rec spriv spub heard sn.st) (hrole : rec.role = sn.role) (hpid : rec.pid = sn.pid)
    (hstr : StrOk pstr pname) (hpeer : PeerOk sn peer pname)
    (hdv : rec.dv = dvp) (i : DevIn L dvp d r istr prlg pub ns) (auth : ℕ) (input : Bytes) :
    Tri h0 (core a rec spriv spub sn.st + ({(rec.pinfo, .str pstr)} + (strBlock pstr pname + L))) (recvAt a auth input)
      (fun o L' => let g := sessionRead (d.peers.map fun e => ⟨e.id, e.key⟩) sn input
        ∃ st' pstr' pname', StOk { rec with pid := g.2.2.pid, st := st' } spriv spub (heardAfter heard sn g.1) g.2.2.st ∧
          g.2.2.role = sn.role ∧ StrOk pstr' pname' ∧
          PeerOk g.2.2 (if sn.pid = 0 then nameOf d g.2.2.pid else peer) pname' ∧
          o = .received g.1 (g.2.1.bind (unpack auth)) ∧
          L' = core a { rec with pid := g.2.2.pid, st := st' } spriv spub g.2.2.st + ({(rec.pinfo, .str pstr')} +
            (strBlock pstr' pname' + L))) := by
  unfold recvAt
  refine Tri.bind (sessionReadAt_tri hok hrole hpid hstr hpeer hdv i input) ?_
  generalize sessionRead (d.peers.map fun e => ⟨e.id, e.key⟩) sn input = g
  rintro ⟨rc, emp⟩ L' ⟨st', pstr', pname', g1, g2, g3, g4, g5, hx⟩
  simp only at g5
  subst g5
  rcases hx with ⟨hs, em, mp, he, hmp, rfl⟩ | ⟨hs, he, rfl⟩
  · simp only [hs, if_true]
    unfold unpackMsg
    simp only [bind_assoc]
    refine Tri.read (fun h x => x.loadEncap (l := em.level) (n := em.msg.length) (p := mp) (by simp)) ?_
    have hu : unpack auth em = if (if em.msg.length = 0 then true else authOk auth em.level) = true then some em.msg
        else none := by
      unfold unpack authOk; rfl
    simp only
    have hfail : unpack auth em = none → Tri h0 (core a { rec with pid := g.2.2.pid, st := st' } spriv spub g.2.2.st +
        ({(rec.pinfo, .str pstr')} + (strBlock pstr' pname' + ({(emp, .encap em.level em.msg.length mp)} +
          (prlgBlock mp em.msg + L))))) (do encapFree emp; pure (Out.received g.1 none)) (fun o L' =>
        ∃ st' pstr' pname', StOk { rec with pid := g.2.2.pid, st := st' } spriv spub (heardAfter heard sn g.1) g.2.2.st ∧
          g.2.2.role = sn.role ∧ StrOk pstr' pname' ∧
          PeerOk g.2.2 (if sn.pid = 0 then nameOf d g.2.2.pid else peer) pname' ∧
          o = Out.received g.1 (g.2.1.bind (unpack auth)) ∧
          L' = core a { rec with pid := g.2.2.pid, st := st' } spriv spub g.2.2.st + ({(rec.pinfo, .str pstr')} +
            (strBlock pstr' pname' + L))) := by
      intro hu
      refine encapFree_tri hmp (L := core a { rec with pid := g.2.2.pid, st := st' } spriv spub g.2.2.st +
          ({(rec.pinfo, .str pstr')} + (strBlock pstr' pname' + L))) (by abel) ?_
      exact Tri.pure ⟨st', pstr', pname', g1, g2, g3, g4, by rw [he, Option.bind_some, hu], rfl⟩
    by_cases hl : em.msg.length > 0
    · have hne : em.msg ≠ [] := List.length_pos_iff.mp hl
      have hn : em.msg.length ≠ 0 := by omega
      simp only [hn, if_false] at hu ⊢
      by_cases hb : authOk auth em.level = true
      · rw [if_pos hb] at hu ⊢
        simp only [hl, if_true, bind_assoc, pure_bind]
        refine Tri.read (fun h x => x.loadAll (b := em.msg) (by simp [prlgBlock, hne]) rfl) ?_
        refine Tri.alloc _ fun m _ => ?_
        refine encapFree_tri hmp (L := {(m, .bytes em.msg)} + (core a { rec with pid := g.2.2.pid, st := st' } spriv spub g.2.2.st +
          ({(rec.pinfo, .str pstr')} + (strBlock pstr' pname' + L)))) (by abel) ?_
        refine Tri.read (fun h x => x.loadBuf (b := em.msg) (by
          simp only [prlgBlock, hne, if_false]; exact Multiset.le_add_right _ _) rfl) ?_
        refine Tri.free rfl ?_
        exact Tri.pure ⟨st', pstr', pname', g1, g2, g3, g4, (by rw [he, Option.bind_some, hu]), rfl⟩
      · rw [if_neg hb] at hu ⊢
        simpa only [pure_bind, Bool.false_eq_true, if_false] using hfail hu
    · have hne : em.msg = [] := by
        rw [← List.length_eq_zero_iff]; omega
      have hn : em.msg.length = 0 := by omega
      simp only [hn, if_true] at hu
      simp only [hn, if_true, gt_iff_lt, lt_irrefl, if_false, pure_bind]
      refine encapFree_tri hmp (L := core a { rec with pid := g.2.2.pid, st := st' } spriv spub g.2.2.st +
          ({(rec.pinfo, .str pstr')} + (strBlock pstr' pname' + L))) (by abel) ?_
      refine Tri.read (fun h x => x.loadBuf (b := em.msg) (by simp [prlgBlock, hne]) hn.symm) ?_
      refine Tri.freeBuf' (b := []) (fun _ => rfl) (by simp only [prlgBlock, if_true]; exact (zero_add _).symm) ?_
      exact Tri.pure ⟨st', pstr', pname', g1, g2, g3, g4, (by rw [he, Option.bind_some, hu]), rfl⟩
  · simp only [hs]
    exact Tri.pure ⟨st', pstr', pname', g1, g2, g3, g4, by rw [he]; rfl, rfl⟩

end

end Verif.Noise.Mem
