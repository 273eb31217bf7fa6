import Verif.Proofs.SessionMem

/-!
# Whole calls on sessions on the heap
-/

namespace Verif.Noise.Mem

open NoiseCrypto Spec.Device Spec.SessionMem


/-! ### Sessions -/

/-- Blocks of the state of a session, with its static keys. -/
def stBlocks (rec : SessionRec) (spriv spub : B32) (st : SState) : Blocks :=
  match rec.st, st with
  | .handshake p, .handshake s => hsBlocks p s
  | .transport q, .transport t =>
    {(rec.spriv, .bytes spriv.toList)} + {(rec.spub, .bytes spub.toList)} + tsBlocks q t
  | _, _ => 0

/-- The state on the heap and the state as a value agree. -/
def StOk (rec : SessionRec) (spriv spub : B32) (heard : Bool) (st : SState) : Prop :=
  match rec.st, st with
  | .handshake p, .handshake s => p.step = s.step ∧ p.spriv = rec.spriv ∧ p.spub = rec.spub ∧ s.spriv = spriv ∧
      s.spub = spub ∧ heard = false
  | .transport q, .transport t => q.sendNonce = t.sendNonce ∧ q.recvNonce = t.recvNonce ∧ q.heard = heard
  | _, _ => False

def core (a : ℕ) (rec : SessionRec) (spriv spub : B32) (st : SState) : Blocks :=
  {(a, .session rec)} + stBlocks rec spriv spub st

section
variable [Hashes] [NoiseCrypto] {h0 : Heap} {L : Blocks} {rec : SessionRec} {spriv spub : B32} {heard : Bool}
  {sn : Session} {a : ℕ}

theorem finish_error {p : HsPtr} (hst : rec.st = .handshake p) (e : Err) :
    Tri h0 ({(a, .session rec)} + L) (finish a (.error e))
      (fun x L' => x = some e ∧ L' = {(a, .session { rec with st := .handshake { p with step := 4 } })} + L) := by
  unfold finish
  refine Tri.read (fun h x => x.loadSession (x := rec) (by simp)) ?_
  simp only [hst]
  refine Tri.store _ rfl ?_
  exact Tri.pure ⟨rfl, rfl⟩

theorem finish_ok (rec' : SessionRec) :
    Tri h0 ({(a, .session rec)} + L) (finish a (.ok rec'))
      (fun x L' => x = none ∧ L' = {(a, .session rec')} + L) := by
  unfold finish
  refine Tri.store _ rfl ?_
  exact Tri.pure ⟨rfl, rfl⟩

/-- After a message was written. -/
def SPost (a : ℕ) (rec : SessionRec) (spriv spub : B32) (heard : Bool) (sn : Session) (out n : ℕ) (L : Blocks)
    (r : Except Err Bytes × Session) (x : Option Err) (L' : Blocks) : Prop :=
  ∃ st', StOk { rec with st := st' } spriv spub heard r.2.st ∧ r.2.role = sn.role ∧ r.2.pid = sn.pid ∧
    match r.1 with
    | .error e => x = some e ∧ ∃ b, L' = core a { rec with st := st' } spriv spub r.2.st + ({(out, .bytes b)} + L)
    | .ok c => x = none ∧ c.length = n ∧
        L' = core a { rec with st := st' } spriv spub r.2.st + ({(out, .bytes c)} + L)

theorem stateHandshakeWrite_tri {p : HsPtr} {s : HS} (hst : rec.st = .handshake p) (hs : sn.st = .handshake s)
    (hok : StOk rec spriv spub heard sn.st) (hrole : rec.role = sn.role) {msg old : Bytes} {payload out outlen : ℕ}
    (hp : prlgBlock payload msg ≤ L) (ho : old.length = outlen) :
    Tri h0 (core a rec spriv spub sn.st + ({(out, .bytes old)} + L)) (stateHandshakeWrite msg.length payload a outlen out)
      (SPost a rec spriv spub heard sn out outlen L (handshakeWrite sn msg outlen)) := by
  unfold stateHandshakeWrite handshakeWrite core
  simp only [StOk, hst, hs] at hok
  obtain ⟨h1, h2, h3, h4, h5, h6⟩ := hok
  have hblk : stBlocks rec spriv spub sn.st = hsBlocks p s := by simp [stBlocks, hst, hs]
  rw [hblk]
  refine Tri.read (fun h x => x.loadSession (x := rec) (by simp)) ?_
  simp only [hst, hs, bind_assoc, hrole, h1]
  refine Tri.perm (L1 := hsBlocks p s + ({(out, .bytes old)} + ({(a, .session rec)} + L))) (by abel) ?_
  have hp' : prlgBlock payload msg ≤ {(a, Block.session rec)} + L := le_trans hp (Multiset.le_add_left _ _)
  refine Tri.bind (Q := WPost p s out outlen ({(a, .session rec)} + L) (
      if s.step ≥ 3 then (.error .incorrectTransition, s)
      else match sn.role with
        | .initiator =>
          if ¬ s.step % 2 = 0 then (.error .incorrectTransition, s)
          else if s.step = 0 then initWrite0 s msg outlen else initWrite2 s msg outlen
        | .responder =>
          if s.step % 2 = 0 then (.error .incorrectTransition, s) else respWrite1 s msg outlen)) ?_ ?_
  · have fin : ∀ e : Err, Tri h0 (hsBlocks p s + ({(out, .bytes old)} + ({(a, .session rec)} + L))) (pure (.error e))
        (WPost p s out outlen ({(a, .session rec)} + L) (.error e, s)) := fun e =>
      Tri.pure ⟨⟨rfl, rfl⟩, rfl, old, rfl⟩
    by_cases c3 : s.step ≥ 3
    · rw [if_pos c3, if_pos c3]
      exact fin _
    rw [if_neg c3, if_neg c3]
    cases sn.role with
    | initiator =>
      dsimp only
      by_cases c2 : s.step % 2 = 0
      · rw [if_neg (not_not.mpr c2), if_neg (not_not.mpr c2)]
        by_cases c0 : s.step = 0
        · rw [if_pos c0, if_pos c0]
          exact initWrite0_tri hp' ho
        · rw [if_neg c0, if_neg c0]
          exact initWrite2_tri hp' ho
      · rw [if_pos c2, if_pos c2]
        exact fin _
    | responder =>
      dsimp only
      by_cases c2 : s.step % 2 = 0
      · rw [if_pos c2, if_pos c2]
        exact fin _
      · rw [if_neg c2, if_neg c2]
        exact respWrite1_tri hp' ho
  · intro x L' hx
    generalize (if s.step ≥ 3 then (.error .incorrectTransition, s)
      else match sn.role with
        | .initiator =>
          if ¬ s.step % 2 = 0 then (.error .incorrectTransition, s)
          else if s.step = 0 then initWrite0 s msg outlen else initWrite2 s msg outlen
        | .responder =>
          if s.step % 2 = 0 then (.error .incorrectTransition, s) else respWrite1 s msg outlen : HRes Bytes) = y at hx ⊢
    obtain ⟨res, s'⟩ := y
    obtain ⟨⟨e1, e2⟩, hx⟩ := hx
    cases res with
    | error e =>
      obtain ⟨rfl, b, rfl⟩ := hx
      simp only [pure_bind]
      refine Tri.perm (L1 := {(a, .session rec)} + (hsBlocks p s' + ({(out, .bytes b)} + L))) (by abel) ?_
      refine Tri.mono (finish_error hst e) ?_
      rintro _ _ ⟨rfl, rfl⟩
      refine ⟨.handshake { p with step := 4 }, ⟨rfl, h2, h3, e1.trans h4, e2.trans h5, h6⟩, rfl, rfl, rfl, b, ?_⟩
      simp only [core, stBlocks]
      exact (add_assoc _ _ _).symm
    | ok c =>
      obtain ⟨rfl, e3, hcl, rfl⟩ := hx
      by_cases h2' : s.step = 2
      · simp only [h2', if_true, bind_assoc, pure_bind]
        refine Tri.bind (splitAt_tri (p := { p with step := p.step + 1 }) (s := s') sn.role) ?_
        rintro st L' ⟨q, rfl, n1, n2, n3, rfl⟩
        refine Tri.perm (L1 := {(a, .session rec)} + (({(p.spriv, .bytes s'.spriv.toList)} +
          {(p.spub, .bytes s'.spub.toList)} + tsBlocks q (split sn.role s')) + ({(out, .bytes c)} + L))) (by abel) ?_
        refine Tri.mono (finish_ok _) ?_
        rintro _ _ ⟨rfl, rfl⟩
        refine ⟨.transport q, ⟨n1, n2, n3.trans h6.symm⟩, rfl, rfl, rfl, hcl, ?_⟩
        simp only at e1 e2
        simp only [core, stBlocks, ← h2, ← h3, ← h4, ← h5, e1, e2, hrole]
        exact (add_assoc _ _ _).symm
      · simp only [h2', if_false, pure_bind]
        refine Tri.perm (L1 := {(a, .session rec)} + (hsBlocks p s' + ({(out, .bytes c)} + L))) (by abel) ?_
        refine Tri.mono (finish_ok _) ?_
        rintro _ _ ⟨rfl, rfl⟩
        refine ⟨.handshake { p with step := p.step + 1 }, ⟨?_, h2, h3, e1.trans h4, e2.trans h5, h6⟩, rfl, rfl, rfl, hcl, ?_⟩
        · simp only at e3 ⊢; omega
        · simp only [core, stBlocks, hrole]
          exact (add_assoc _ _ _).symm

theorem stateTransportWrite_tri {q : TsPtr} {t : TS} (hst : rec.st = .transport q) (hs : sn.st = .transport t)
    (hok : StOk rec spriv spub heard sn.st) {msg old : Bytes} {payload out clen : ℕ}
    (hp : prlgBlock payload msg ≤ L) (ho : old.length = clen) :
    Tri h0 (core a rec spriv spub sn.st + ({(out, .bytes old)} + L)) (stateTransportWrite msg.length payload clen out a)
      (SPost a rec spriv spub heard sn out clen L (transportWrite sn msg clen)) := by
  unfold stateTransportWrite transportWrite core
  simp only [StOk, hst, hs] at hok
  obtain ⟨h1, h2, h3⟩ := hok
  have hblk : stBlocks rec spriv spub sn.st = {(rec.spriv, .bytes spriv.toList)} + {(rec.spub, .bytes spub.toList)} +
      tsBlocks q t := by simp [stBlocks, hst, hs]
  rw [hblk]
  refine Tri.read (fun h x => x.loadSession (x := rec) (by simp)) ?_
  simp only [hst, hs, h1]
  have same : StOk { rec with st := rec.st } spriv spub heard sn.st := by
    simp only [StOk, hst, hs]; exact ⟨h1, h2, h3⟩
  have hcore : ∀ b, {(a, Block.session rec)} + ({(rec.spriv, Block.bytes spriv.toList)} + {(rec.spub, .bytes spub.toList)} +
      tsBlocks q t) + ({(out, .bytes b)} + L) = core a rec spriv spub sn.st + ({(out, .bytes b)} + L) := by
    intro b
    simp only [core, hblk]
  have fin : ∀ e : Err, Tri h0 ({(a, Block.session rec)} + ({(rec.spriv, Block.bytes spriv.toList)} +
      {(rec.spub, .bytes spub.toList)} + tsBlocks q t) + ({(out, .bytes old)} + L)) (pure (some e))
      (SPost a rec spriv spub heard sn out clen L (.error e, sn)) := fun e =>
    Tri.pure ⟨rec.st, same, rfl, rfl, rfl, old, hcore old⟩
  split
  · exact fin _
  · rename_i hc
    split
    · exact fin _
    · refine Tri.read (fun h x => x.loadN (v := t.sendKey) (by simp [tsBlocks])) ?_
      refine Tri.read (fun h x => x.loadBuf (payload_le hp _ _) rfl) ?_
      rw [toB32_toList]
      refine Tri.write (old := old) (L1 := {(a, Block.session rec)} + ({(rec.spriv, Block.bytes spriv.toList)} +
        {(rec.spub, .bytes spub.toList)} + tsBlocks q t) + L) (by abel) (by rw [enc_length]; omega) ?_
      refine Tri.store (b := .session rec) _ (L1 := {(rec.spriv, Block.bytes spriv.toList)} +
        {(rec.spub, .bytes spub.toList)} + tsBlocks q t + ({(out, .bytes (aeadEnc t.sendKey t.sendNonce [] msg))} + L))
        (by abel) ?_
      refine Tri.pure ⟨.transport { q with sendNonce := t.sendNonce + 1 }, ⟨rfl, h2, h3⟩, rfl, rfl, rfl, ?_, ?_⟩
      · rw [enc_length]; omega
      · simp only [core, stBlocks, tsBlocks]
        exact (add_assoc _ _ _).symm

theorem secOk_pack (c conf : ℕ) (msg : Bytes) : secOk c (pack conf msg) = levelOk c msg.length (.conf conf) := rfl

/-- After `session_write`. -/
def WrPost (a : ℕ) (rec : SessionRec) (spriv spub : B32) (heard : Bool) (sn : Session) (L : Blocks)
    (r : RCode × Option Bytes × Session) (x : RCode × ℕ × ℕ) (L' : Blocks) : Prop :=
  ∃ st', StOk { rec with st := st' } spriv spub heard r.2.2.st ∧ r.2.2.role = sn.role ∧ r.2.2.pid = sn.pid ∧ x.1 = r.1 ∧
    ((r.1.isSuccess = true ∧ ∃ b, r.2.1 = some b ∧ x.2.1 = b.length ∧
        L' = core a { rec with st := st' } spriv spub r.2.2.st + ({(x.2.2, .bytes b)} + L)) ∨
      (r.1.isSuccess = false ∧ r.2.1 = none ∧ L' = core a { rec with st := st' } spriv spub r.2.2.st + L))

theorem sessionWriteAt_tri (hok : StOk rec spriv spub heard sn.st) (hrole : rec.role = sn.role) {emp mp conf : ℕ}
    {msg : Bytes} (hem : (emp, Block.encap (.conf conf) msg.length mp) ∈ L) (hp : prlgBlock mp msg ≤ L) :
    Tri h0 (core a rec spriv spub sn.st + L) (sessionWriteAt emp a)
      (WrPost a rec spriv spub heard sn L (sessionWrite (pack conf msg) sn)) := by
  unfold sessionWriteAt sessionWrite
  refine Tri.read (fun h x => x.loadSession (x := rec) (by simp [core])) ?_
  have same : ∀ (rc : RCode), rc.isSuccess = false → Tri h0 (core a rec spriv spub sn.st + L) (pure (rc, 0, 0))
      (WrPost a rec spriv spub heard sn L (rc, none, sn)) := fun rc hrc =>
    Tri.pure ⟨rec.st, hok, rfl, rfl, rfl, .inr ⟨hrc, rfl, rfl⟩⟩
  have hlen : (pack conf msg).msg.length = msg.length := rfl
  cases hs : sn.st with
  | transport t =>
    cases hst : rec.st with
    | handshake p => simp [StOk, hst, hs] at hok
    | transport q =>
      simp only
      rw [← hs]
      refine Tri.read (fun h x => x.loadEncap (Multiset.mem_add.mpr (.inr hem))) ?_
      simp only [hlen, secOk_pack]
      split
      · split
        · refine Tri.alloc _ fun out _ => ?_
          refine Tri.perm (L1 := core a rec spriv spub sn.st + ({(out, .bytes (List.replicate (msg.length + 16) 0))} + L))
            (by abel) ?_
          refine Tri.bind (stateTransportWrite_tri hst hs hok hp (by simp)) ?_
          intro x L' hx
          obtain ⟨st', g1, g2, g3, hx⟩ := hx
          change match (transportWrite sn msg (msg.length + 16)).1 with
            | .error e => _
            | .ok c => _ at hx
          have hm : (pack conf msg).msg = msg := rfl
          rw [hm]
          generalize transportWrite sn msg (msg.length + 16) = y at *
          obtain ⟨res, sn'⟩ := y
          cases res with
          | error e =>
            obtain ⟨rfl, b, rfl⟩ := hx
            simp only
            refine Tri.free (a := out) (b := .bytes b) (L1 := core a { rec with st := st' } spriv spub sn'.st + L) (by abel) ?_
            exact Tri.pure ⟨st', g1, g2, g3, rfl, .inr ⟨rfl, rfl, rfl⟩⟩
          | ok c =>
            obtain ⟨rfl, hc, rfl⟩ := hx
            exact Tri.pure ⟨st', g1, g2, g3, rfl, .inl ⟨rfl, c, rfl, hc.symm, rfl⟩⟩
        · exact same _ rfl
      · exact same _ rfl
  | handshake s =>
    cases hst : rec.st with
    | transport q => simp [StOk, hst, hs] at hok
    | handshake p =>
      have hstep : p.step = s.step := by
        have := hok
        simp only [StOk, hst, hs] at this
        exact this.1
      simp only [hstep]
      rw [← hs]
      split
      · exact same _ rfl
      · refine Tri.read (fun h x => x.loadEncap (Multiset.mem_add.mpr (.inr hem))) ?_
        simp only [hlen, secOk_pack]
        cases hn : nextLen s.step msg.length with
        | none => exact same _ rfl
        | some outlen =>
          generalize (if s.step = 0 then 2 else if s.step = 1 then 1 else 5 : ℕ) = lv
          simp only
          by_cases hv : levelOk lv msg.length (.conf conf) = true
          · simp only [hv, if_true]
            refine Tri.alloc _ fun out _ => ?_
            refine Tri.perm (L1 := core a rec spriv spub sn.st + ({(out, .bytes (List.replicate outlen 0))} + L))
              (by abel) ?_
            refine Tri.bind (stateHandshakeWrite_tri hst hs hok hrole hp (by simp)) ?_
            intro x L' hx
            obtain ⟨st', g1, g2, g3, hx⟩ := hx
            have hm : (pack conf msg).msg = msg := rfl
            rw [hm]
            generalize handshakeWrite sn msg outlen = y at *
            obtain ⟨res, sn'⟩ := y
            cases res with
            | error e =>
              obtain ⟨rfl, b, rfl⟩ := hx
              simp only
              refine Tri.free (a := out) (b := .bytes b) (L1 := core a { rec with st := st' } spriv spub sn'.st + L) (by abel) ?_
              exact Tri.pure ⟨st', g1, g2, g3, rfl, .inr ⟨rfl, rfl, rfl⟩⟩
            | ok c =>
              obtain ⟨rfl, hc, rfl⟩ := hx
              exact Tri.pure ⟨st', g1, g2, g3, rfl, .inl ⟨rfl, c, rfl, hc.symm, rfl⟩⟩
          · simp only [hv, if_false, Bool.false_eq_true]
            exact same _ rfl

theorem packMsg_tri {β : Type} {R : β → Blocks → Prop} {conf : ℕ} {msg : Bytes} {f : ℕ → M β}
    (k : ∀ emp mp, (msg = [] → mp = 0) →
      Tri h0 ({(emp, .encap (.conf conf) msg.length mp)} + (prlgBlock mp msg + L)) (f emp) R) :
    Tri h0 L (packMsg conf msg >>= f) R := by
  unfold packMsg
  simp only [bind_assoc]
  by_cases hm : msg = []
  · subst hm
    simp only [List.length_nil, gt_iff_lt, lt_irrefl, if_false, pure_bind]
    refine Tri.alloc _ fun emp _ => ?_
    have := k emp 0 (fun _ => rfl)
    simpa [prlgBlock] using this
  · have hl : msg.length > 0 := List.length_pos_iff.mpr hm
    simp only [hl, if_true, bind_assoc]
    refine Tri.alloc _ fun mp _ => ?_
    refine Tri.alloc _ fun emp _ => ?_
    have := k emp mp (fun h => absurd h hm)
    simpa [prlgBlock, hm] using this

theorem encapFree_tri {β : Type} {R : β → Blocks → Prop} {emp mp n : ℕ} {l : Level} {msg : Bytes}
    (hm : msg = [] → mp = 0) {f : Unit → M β} {L0 : Blocks}
    (e : L0 = {(emp, .encap l n mp)} + (prlgBlock mp msg + L)) (k : Tri h0 L (f ()) R) :
    Tri h0 L0 (encapFree emp >>= f) R := by
  subst e
  unfold encapFree
  simp only [bind_assoc]
  refine Tri.read (fun h x => x.loadEncap (l := l) (n := n) (p := mp) (by simp)) ?_
  refine Tri.freeBuf hm (L1 := {(emp, .encap l n mp)} + L) (by abel) ?_
  exact Tri.free rfl k

theorem sendAt_tri (hok : StOk rec spriv spub heard sn.st) (hrole : rec.role = sn.role) (conf : ℕ) (msg : Bytes) :
    Tri h0 (core a rec spriv spub sn.st + L) (sendAt a conf msg) (fun o L' =>
      let r := sessionWrite (pack conf msg) sn
      ∃ st', StOk { rec with st := st' } spriv spub heard r.2.2.st ∧ r.2.2.role = sn.role ∧ r.2.2.pid = sn.pid ∧
        o = .sent r.1 r.2.1 ∧ L' = core a { rec with st := st' } spriv spub r.2.2.st + L) := by
  unfold sendAt
  refine packMsg_tri fun emp mp hm => ?_
  refine Tri.perm (L1 := core a rec spriv spub sn.st + ({(emp, .encap (.conf conf) msg.length mp)} + (prlgBlock mp msg + L)))
    (by abel) ?_
  refine Tri.bind (sessionWriteAt_tri (conf := conf) (msg := msg) (mp := mp) hok hrole (by simp)
    (le_trans (Multiset.le_add_right _ _) (Multiset.le_add_left _ _))) ?_
  rintro ⟨rc, n, out⟩ L' ⟨st', g1, g2, g3, g4, hx⟩
  simp only at g4
  subst g4
  rcases hx with ⟨hs, b, hb, hn, rfl⟩ | ⟨hs, hb, rfl⟩
  · refine encapFree_tri hm (L := core a { rec with st := st' } spriv spub (sessionWrite (pack conf msg) sn).2.2.st +
      ({(out, .bytes b)} + L)) (by simp only; abel) ?_
    simp only [hs, if_true]
    refine Tri.read (fun h x => x.loadAll (b := b) (by simp) hn) ?_
    refine Tri.free (b := .bytes b) (L1 := core a { rec with st := st' } spriv spub (sessionWrite (pack conf msg) sn).2.2.st + L)
      (by abel) ?_
    exact Tri.pure ⟨st', g1, g2, g3, by rw [hb], rfl⟩
  · refine encapFree_tri hm (L := core a { rec with st := st' } spriv spub (sessionWrite (pack conf msg) sn).2.2.st + L)
      (by abel) ?_
    simp only [hs]
    exact Tri.pure ⟨st', g1, g2, g3, by rw [hb], rfl⟩

end

end Verif.Noise.Mem
