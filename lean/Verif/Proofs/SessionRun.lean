import Verif.Proofs.SessionNew

/-!
# Runs of a device with its sessions on the heap
-/

set_option linter.unusedSectionVars false

namespace Verif.Noise.Mem

open NoiseCrypto Spec.Device Spec.SessionMem

/-! ### Closing a session -/

/-- From every heap with the blocks `L` and `K` the function frees exactly `L`; what the blocks held goes back to the
allocator as it was. -/
def Drop (h0 : Heap) (L K : Blocks) (m : M Unit) : Prop :=
  ∀ h, Sep h0 h (L + K) → ∃ h', m h = .ok ((), h') ∧ Sep h0 h' K ∧
    ∀ b, ((∃ a, (a, b) ∈ L) ∨ b ∈ h.released) → b ∈ h'.released

section
variable {α : Type} {h0 : Heap} {L L1 L2 K : Blocks}

theorem Drop.perm {m : M Unit} (e : L = L1) (d : Drop h0 L1 K m) : Drop h0 L K m := e ▸ d

theorem Drop.bind {m : M Unit} {f : Unit → M Unit} (d1 : Drop h0 L1 (L2 + K) m) (d2 : Drop h0 L2 K (f ())) :
    Drop h0 (L1 + L2) K (m >>= f) := by
  intro h s
  obtain ⟨h1, e1, s1, r1⟩ := d1 h (by rwa [← add_assoc])
  obtain ⟨h2, e2, s2, r2⟩ := d2 h1 s1
  refine ⟨h2, by rw [run_bind, e1, C.ok_bind]; exact e2, s2, fun b hb => ?_⟩
  rcases hb with ⟨a, hb⟩ | hb
  · rcases Multiset.mem_add.mp hb with hb | hb
    · exact r2 b (.inr (r1 b (.inl ⟨a, hb⟩)))
    · exact r2 b (.inl ⟨a, hb⟩)
  · exact r2 b (.inr (r1 b (.inr hb)))

theorem Drop.read {m : M α} {a : α} {f : α → M Unit} (hm : ∀ h, Sep h0 h (L + K) → m h = .ok (a, h))
    (d : Drop h0 L K (f a)) : Drop h0 L K (m >>= f) := by
  intro h s
  obtain ⟨h', e, s', r⟩ := d h s
  exact ⟨h', by rw [run_bind, hm h s, C.ok_bind]; exact e, s', r⟩

theorem Drop.free (a : ℕ) (b : Block) : Drop h0 {(a, b)} K (Mem.free a) := by
  intro h s
  obtain ⟨h', e, s', r⟩ := s.free
  refine ⟨h', e, s', fun b' hb => ?_⟩
  rw [r]
  rcases hb with ⟨a', hb⟩ | hb
  · rw [Multiset.mem_singleton, Prod.mk.injEq] at hb
    rw [hb.2]; exact List.mem_cons_self
  · exact List.mem_cons_of_mem _ hb

theorem Drop.str {p : ℕ} {t : Bytes} (ho : StrOk p t) : Drop h0 (strBlock p t) K (freeSome p) := by
  by_cases he : t = []
  · intro h s
    refine ⟨h, by simp [freeSome, ho.1 he, run_pure], by simpa [strBlock, he] using s, ?_⟩
    rintro b (⟨a, hb⟩ | hb)
    · simp [strBlock, he] at hb
    · exact hb
  · intro h s
    simp only [strBlock, he, if_false] at s ⊢
    have hp : p ≠ 0 := s.ne (b := .bytes (t ++ [0])) (by simp)
    rw [freeSome, if_pos hp]
    exact Drop.free p _ h s

end

section
variable [Hashes] [NoiseCrypto] {h0 : Heap} {K : Blocks} {dvp : ℕ} {spriv : B32}

/-- `session_free` frees every block of the session, and nothing in them is erased. -/
theorem sessionFree_drop {z : SnPtr × Sn} (ok : SnOk dvp spriv z) : Drop h0 (snB z) K (sessionFree z.1.a) := by
  obtain ⟨⟨a, rec, istr, pstr, pname, sp, pub⟩, ⟨⟨role, pid, st⟩, id, name, peer, heard⟩⟩ := z
  have hst := ok.st
  have hi := ok.istr
  have hp := ok.pstr
  simp only [StOk] at hst
  simp only at hi hp
  unfold sessionFree
  refine Drop.read (fun h s => s.loadSession (x := rec) (by simp [snB, core])) ?_
  have rest : ∀ K, Drop h0 ({(rec.info, .str istr)} + strBlock istr name + ({(rec.pinfo, .str pstr)} + strBlock pstr pname) +
      {(rec.spriv, .bytes sp.toList)} + {(rec.spub, .bytes pub.toList)} + {(a, .session rec)}) K (do
      let str ← loadStr rec.info
      freeSome str
      Mem.free rec.info
      let str0 ← loadStr rec.pinfo
      freeSome str0
      Mem.free rec.pinfo
      Mem.free rec.spriv
      Mem.free rec.spub
      Mem.free a) := by
    intro K
    refine Drop.read (fun h s => s.loadStr (p := istr) (by simp)) ?_
    refine Drop.perm (L1 := strBlock istr name + ({(rec.info, .str istr)} + (strBlock pstr pname + ({(rec.pinfo, .str pstr)} +
      ({(rec.spriv, .bytes sp.toList)} + ({(rec.spub, .bytes pub.toList)} + {(a, .session rec)})))))) (by abel) ?_
    refine Drop.bind (Drop.str hi) ?_
    refine Drop.bind (Drop.free _ _) ?_
    refine Drop.read (fun h s => s.loadStr (p := pstr) (by simp)) ?_
    refine Drop.bind (Drop.str hp) ?_
    refine Drop.bind (Drop.free _ _) ?_
    refine Drop.bind (Drop.free _ _) ?_
    exact Drop.bind (Drop.free _ _) (Drop.free _ _)
  revert hst
  cases hrs : rec.st with
  | handshake p =>
    cases st with
    | transport t => exact fun h => h.elim
    | handshake s =>
      rintro ⟨h1, h2, h3, h4, h5, h6⟩
      subst h4 h5
      simp only [bind_assoc]
      refine Drop.perm (L1 := {(p.k, .bytes s.cipherKey.toList)} + ({(p.ck, .bytes s.ck.toList)} + ({(p.h, .bytes s.h.toList)} +
        ({(p.epriv, .bytes s.epriv.toList)} + ({(p.epub, .bytes s.epub.toList)} + ({(p.rs, .bytes s.rs.toList)} +
        ({(p.re, .bytes s.re.toList)} + ({(rec.info, .str istr)} + strBlock istr name +
        ({(rec.pinfo, .str pstr)} + strBlock pstr pname) +
        {(rec.spriv, .bytes s.spriv.toList)} + {(rec.spub, .bytes s.spub.toList)} + {(a, .session rec)})))))))) (by
          simp only [snB, core, stBlocks, hrs, hsBlocks, h2, h3]; abel) ?_
      refine Drop.bind (Drop.free _ _) ?_
      refine Drop.bind (Drop.free _ _) ?_
      refine Drop.bind (Drop.free _ _) ?_
      refine Drop.bind (Drop.free _ _) ?_
      refine Drop.bind (Drop.free _ _) ?_
      refine Drop.bind (Drop.free _ _) ?_
      exact Drop.bind (Drop.free _ _) (rest _)
  | transport q =>
    cases st with
    | handshake s => exact fun h => h.elim
    | transport t =>
      rintro -
      simp only [bind_assoc]
      refine Drop.perm (L1 := {(q.h, .bytes t.h.toList)} + ({(q.sendKey, .bytes t.sendKey.toList)} +
        ({(q.recvKey, .bytes t.recvKey.toList)} + ({(rec.info, .str istr)} + strBlock istr name +
        ({(rec.pinfo, .str pstr)} + strBlock pstr pname) +
        {(rec.spriv, .bytes sp.toList)} + {(rec.spub, .bytes pub.toList)} + {(a, .session rec)})))) (by
          simp only [snB, core, stBlocks, hrs, tsBlocks]; abel) ?_
      refine Drop.bind (Drop.free _ _) ?_
      refine Drop.bind (Drop.free _ _) ?_
      exact Drop.bind (Drop.free _ _) (rest _)

/-! ### Questions -/

theorem inspectAt_tri {z : SnPtr × Sn} (ok : SnOk dvp spriv z) :
    Tri h0 (snB z + K) (inspectAt z.1.a) (fun o L' => o = .info z.2.info ∧ L' = snB z + K) := by
  obtain ⟨⟨a, rec, istr, pstr, pname, sp, pub⟩, ⟨⟨role, pid, st⟩, id, name, peer, heard⟩⟩ := z
  have hst := ok.st
  have hi := ok.istr
  have hp := ok.pstr
  have hrole := ok.role
  have hpid := ok.pid
  have hid := ok.id
  have hpeer := ok.peer
  simp only [StOk] at hst
  simp only at hi hp hrole hpid hid hpeer
  subst hrole hpid hid
  unfold inspectAt
  have ls : ∀ Y h, Sep h0 h (Y + (snB (⟨a, rec, istr, pstr, pname, sp, pub⟩, ⟨⟨rec.role, rec.pid, st⟩, rec.id, name, peer, heard⟩) + K)) →
      loadSession a h = .ok (rec, h) := fun Y h s => s.loadSession (by simp [snB, core])
  have ls0 : ∀ h, Sep h0 h (snB (⟨a, rec, istr, pstr, pname, sp, pub⟩, ⟨⟨rec.role, rec.pid, st⟩, rec.id, name, peer, heard⟩) + K) →
      loadSession a h = .ok (rec, h) := fun h s => s.loadSession (by simp [snB, core])
  have hstatus : ∀ h, Sep h0 h (snB (⟨a, rec, istr, pstr, pname, sp, pub⟩, ⟨⟨rec.role, rec.pid, st⟩, rec.id, name, peer, heard⟩) + K) →
      getStatus a h = .ok ((Sn.info ⟨⟨rec.role, rec.pid, st⟩, rec.id, name, peer, heard⟩).status, h) := by
    intro h s
    unfold getStatus Sn.info
    rw [run_bind, ls0 h s, C.ok_bind]
    revert hst
    cases hrs : rec.st <;> cases st <;> simp only [false_imp_iff]
    · rintro ⟨h1, -⟩
      rw [h1]
      cases rec.role <;> rfl
    · rintro -; rfl
  have hhash : ∀ h, Sep h0 h (snB (⟨a, rec, istr, pstr, pname, sp, pub⟩, ⟨⟨rec.role, rec.pid, st⟩, rec.id, name, peer, heard⟩) + K) →
      getHash a h = .ok ((Sn.info ⟨⟨rec.role, rec.pid, st⟩, rec.id, name, peer, heard⟩).hash, h) := by
    intro h s
    unfold getHash Sn.info
    rw [run_bind, ls0 h s, C.ok_bind]
    revert hst
    cases hrs : rec.st <;> cases st <;> simp only [false_imp_iff]
    · rintro -
      exact s.loadN64 (by simp [snB, core, stBlocks, hrs, hsBlocks])
    · rintro -
      exact s.loadN64 (by simp [snB, core, stBlocks, hrs, tsBlocks])
  have hmax : ∀ h, Sep h0 h (snB (⟨a, rec, istr, pstr, pname, sp, pub⟩, ⟨⟨rec.role, rec.pid, st⟩, rec.id, name, peer, heard⟩) + K) →
      reachedMax a h = .ok ((Sn.info ⟨⟨rec.role, rec.pid, st⟩, rec.id, name, peer, heard⟩).max, h) := by
    intro h s
    unfold reachedMax Sn.info
    rw [run_bind, ls0 h s, C.ok_bind]
    revert hst
    cases hrs : rec.st <;> cases st <;> simp only [false_imp_iff]
    · rintro -; rfl
    · rintro ⟨-, -, h1⟩
      rw [h1]
      cases rec.role <;> rfl
  have hkey : ∀ h, Sep h0 h (snB (⟨a, rec, istr, pstr, pname, sp, pub⟩, ⟨⟨rec.role, rec.pid, st⟩, rec.id, name, peer, heard⟩) + K) →
      getKey a h = .ok ((Sn.info ⟨⟨rec.role, rec.pid, st⟩, rec.id, name, peer, heard⟩).key, h) := by
    intro h s
    unfold getKey Sn.info sessionGetKey
    rw [run_bind, ls0 h s, C.ok_bind]
    revert hst
    cases hrs : rec.st with
    | handshake p =>
      cases st with
      | handshake x => rintro -; rfl
      | transport x => exact fun h => h.elim
    | transport q =>
      cases st with
      | handshake x => exact fun h => h.elim
      | transport t =>
        rintro -
        simp only
        cases hr : rec.role with
        | initiator =>
          rw [run_bind, s.loadN (v := t.sendKey) (by simp [snB, core, stBlocks, hrs, tsBlocks])]
          rfl
        | responder =>
          rw [run_bind, s.loadN (v := t.recvKey) (by simp [snB, core, stBlocks, hrs, tsBlocks])]
          rfl
  refine Tri.read hstatus ?_
  refine Tri.read hhash ?_
  refine Tri.read (a := rec.id) (fun h s => by unfold getId; rw [run_bind, ls0 h s]; rfl) ?_
  unfold getInfo
  simp only [bind_assoc]
  refine Tri.read ls0 ?_
  refine Tri.copyOf (q := istr) (t := name) (by simp [snB]) hi ?_ fun p ho => ?_
  · refine le_trans ?_ (Multiset.le_add_right _ _)
    simp only [snB]
    exact le_trans (Multiset.le_add_left _ _) (le_trans (Multiset.le_add_left _ _) (le_trans (Multiset.le_add_left _ _)
      (Multiset.le_add_left _ _)))
  refine Tri.read (fun h s => s.storedStr ho (Multiset.le_add_right _ _)) ?_
  refine Tri.freeStr' ho rfl ?_
  refine Tri.read (a := rec.pid) (fun h s => by unfold getPeerId; rw [run_bind, ls0 h s]; rfl) ?_
  unfold getPeerInfo
  simp only [bind_assoc]
  refine Tri.read ls0 ?_
  by_cases h0' : rec.pid = 0
  · rw [if_neg (not_not.mpr h0')]
    simp only [pure_bind]
    refine Tri.read hmax ?_
    refine Tri.read hkey ?_
    exact Tri.pure ⟨by simp [Sn.info, h0'], rfl⟩
  · rw [if_pos h0']
    simp only [bind_assoc, pure_bind]
    obtain rfl : pname = peer := hpeer.1 h0'
    refine Tri.copyOf (q := pstr) (t := pname) (by simp [snB]) hp ?_ fun p ho => ?_
    · refine le_trans ?_ (Multiset.le_add_right _ _)
      simp only [snB]
      exact le_trans (Multiset.le_add_right _ _) (le_trans (Multiset.le_add_left _ _) (Multiset.le_add_left _ _))
    refine Tri.read (fun h s => s.storedStr ho (Multiset.le_add_right _ _)) ?_
    refine Tri.freeStr' ho rfl ?_
    refine Tri.read hmax ?_
    refine Tri.read hkey ?_
    exact Tri.pure ⟨by simp [Sn.info, h0'], rfl⟩

/-! ### Sending keeps the peer -/

theorem sessionWrite_snd (em : Encap) (sn : Session) :
    (sessionWrite em sn).2.2 = sn ∨
    ((∃ s, sn.st = .handshake s) ∧ ∃ l, (sessionWrite em sn).2.2 = (handshakeWrite sn em.msg l).2) ∨
    ((∃ t, sn.st = .transport t) ∧ ∃ l, (sessionWrite em sn).2.2 = (transportWrite sn em.msg l).2) := by
  unfold sessionWrite
  split
  · rename_i t ht
    split
    · split
      · refine .inr (.inr ⟨⟨t, ht⟩, em.msg.length + 16, ?_⟩)
        rcases transportWrite sn em.msg (em.msg.length + 16) with ⟨_ | _, _⟩ <;> rfl
      · exact .inl rfl
    · exact .inl rfl
  · rename_i s hs
    split
    · exact .inl rfl
    · split
      · exact .inl rfl
      · rename_i l _
        generalize secOk _ em = c
        cases c
        · exact .inl rfl
        · refine .inr (.inl ⟨⟨s, hs⟩, l, ?_⟩)
          rcases handshakeWrite sn em.msg l with ⟨_ | _, _⟩ <;> rfl

theorem transportWrite_st (sn : Session) (p : Bytes) (l : ℕ) (h : ∃ t, sn.st = .transport t) :
    ∃ t, (transportWrite sn p l).2.st = .transport t := by
  obtain ⟨t, ht⟩ := h
  simp only [transportWrite, ht]
  split
  · exact ⟨t, ht⟩
  · split
    · exact ⟨t, ht⟩
    · exact ⟨_, rfl⟩

theorem handshakeWrite_responder (sn : Session) (p : Bytes) (l : ℕ) {s : HS} (h : sn.st = .handshake s)
    (hr : sn.role = .responder) : ∃ s', (handshakeWrite sn p l).2.st = .handshake s' := by
  simp only [handshakeWrite, h, hr]
  by_cases h3 : s.step ≥ 3
  · simp only [h3, if_true]; exact ⟨_, rfl⟩
  · by_cases h2 : s.step % 2 = 0
    · simp only [h3, h2, if_true, if_false]; exact ⟨_, rfl⟩
    · have : ¬ s.step = 2 := by omega
      simp only [h3, h2, this, if_false]
      rcases respWrite1 s p l with ⟨_ | _, _⟩ <;> exact ⟨_, rfl⟩

theorem sessionWrite_st (em : Encap) (sn : Session) :
    (∀ x', (sessionWrite em sn).2.2.st = .handshake x' → ∃ x, sn.st = .handshake x ∧ (x'.step < 4 → x.step < 4)) ∧
    ((∃ t, (sessionWrite em sn).2.2.st = .transport t) → (∃ t, sn.st = .transport t) ∨ sn.role = .initiator) := by
  cases hs : sn.st with
  | transport t =>
    refine ⟨fun x' hx => ?_, fun _ => .inl ⟨t, rfl⟩⟩
    exfalso
    rcases sessionWrite_snd em sn with e | ⟨⟨s, e⟩, _⟩ | ⟨h, l, e⟩
    · rw [e, hs] at hx; cases hx
    · rw [hs] at e; cases e
    · obtain ⟨t', ht'⟩ := transportWrite_st sn em.msg l h
      rw [e, ht'] at hx; cases hx
  | handshake s =>
    by_cases h4 : s.step ≥ 4
    · have : sessionWrite em sn = (.stuck .incorrectTransition, none, sn) := by
        simp only [sessionWrite, hs, h4, if_true]
      rw [this]
      refine ⟨fun x' hx => ?_, fun ⟨t, ht⟩ => ?_⟩
      · rw [hs] at hx
        cases hx
        exact ⟨s, rfl, id⟩
      · rw [hs] at ht; cases ht
    · refine ⟨fun x' _ => ⟨s, rfl, fun _ => by omega⟩, fun ⟨t, ht⟩ => .inr ?_⟩
      cases hr : sn.role with
      | initiator => rfl
      | responder =>
        exfalso
        rcases sessionWrite_snd em sn with e | ⟨_, l, e⟩ | ⟨⟨t', e⟩, _⟩
        · rw [e, hs] at ht; cases ht
        · obtain ⟨s', hs'⟩ := handshakeWrite_responder sn em.msg l hs hr
          rw [e, hs'] at ht; cases ht
        · rw [hs] at e; cases e

theorem PeerOk.write {sn : Session} {peer pname : Bytes} (h : PeerOk sn peer pname) (em : Encap)
    (hr : (sessionWrite em sn).2.2.role = sn.role) (hp : (sessionWrite em sn).2.2.pid = sn.pid) :
    PeerOk (sessionWrite em sn).2.2 peer pname := by
  obtain ⟨h1, h2⟩ := sessionWrite_st em sn
  refine ⟨fun hne => h.1 (by rwa [hp] at hne), fun hrole x' hx' => ?_, fun hrole => ?_, fun ht => ?_⟩
  · obtain ⟨x, hx, hlt⟩ := h1 x' hx'
    obtain ⟨g1, g2⟩ := h.2.1 (by rwa [hr] at hrole) x hx
    exact ⟨by rw [hp]; exact g1, fun h => g2 (hlt h)⟩
  · rw [hp]; exact h.2.2.1 (by rwa [hr] at hrole)
  · rw [hp]
    rcases h2 ht with ht | hi
    · exact h.2.2.2 ht
    · exact h.2.2.1 hi

/-! ### All sessions of a program -/

/-- Blocks of all sessions that are open. -/
def allB : List (Option (SnPtr × Sn)) → Blocks
  | [] => 0
  | none :: zs => allB zs
  | some z :: zs => snB z + allB zs

theorem allB_set {zs : List (Option (SnPtr × Sn))} {i : ℕ} {z : SnPtr × Sn} (h : zs[i]? = some (some z))
    (o : Option (SnPtr × Sn)) : allB zs = snB z + allB (zs.set i none) ∧
      allB (zs.set i o) = (o.elim 0 snB) + allB (zs.set i none) := by
  induction zs generalizing i with
  | nil => simp at h
  | cons y zs ih =>
    cases i with
    | zero =>
      simp only [List.getElem?_cons_zero, Option.some.injEq] at h
      subst h
      refine ⟨rfl, ?_⟩
      cases o
      · simp [allB]
      · rfl
    | succ i =>
      obtain ⟨h1, h2⟩ := ih (by simpa using h)
      cases y with
      | none => exact ⟨h1, h2⟩
      | some y =>
        simp only [List.set_cons_succ, allB]
        rw [h1, h2]
        exact ⟨by abel, by abel⟩

theorem allB_append (zs : List (Option (SnPtr × Sn))) (o : Option (SnPtr × Sn)) :
    allB (zs ++ [o]) = o.elim 0 snB + allB zs := by
  induction zs with
  | nil => cases o <;> simp [allB]
  | cons y zs ih =>
    cases y with
    | none => exact ih
    | some y => simp only [List.cons_append, allB, ih]; abel

theorem allB_none {zs : List (Option (SnPtr × Sn))} (h : ∀ o ∈ zs, o = none) : allB zs = 0 := by
  induction zs with
  | nil => rfl
  | cons y zs ih =>
    rw [h y (by simp)]
    exact ih fun o ho => h o (by simp [ho])

def ptrOf (o : Option (SnPtr × Sn)) : ℕ := o.elim 0 (·.1.a)

/-- The heap holds a device and its sessions, at the addresses that the program knows, and the blocks `F`. -/
structure WRep (h0 h : Heap) (F : Blocks) (dvp : ℕ) (w : World) (ps : List ℕ) (zs : List (Option (SnPtr × Sn))) : Prop where
  sns : w.sns = zs.map (Option.map Prod.snd)
  ps : ps = zs.map ptrOf
  ok : ∀ z, some z ∈ zs → SnOk dvp w.d.spriv z
  rep : Represents h0 h dvp w.d (allB zs + F) w.prologue (xbase w.d.spriv).toList w.next

theorem WRep.get {F : Blocks} {h : Heap} {w : World} {ps : List ℕ} {zs : List (Option (SnPtr × Sn))} (s : WRep h0 h F dvp w ps zs) (i : ℕ) :
    (w.sn i = none ∧ ps.getD i 0 = 0) ∨ ∃ z, zs[i]? = some (some z) ∧ w.sn i = some z.2 ∧ ps.getD i 0 = z.1.a ∧
      ps.getD i 0 ≠ 0 ∧ SnOk dvp w.d.spriv z := by
  have e1 : w.sn i = (zs[i]?.join).map Prod.snd := by
    unfold World.sn
    rw [s.sns, List.getElem?_map]
    rcases zs[i]? with _ | _ | z <;> rfl
  have e2 : ps.getD i 0 = (zs[i]?.join).elim 0 (·.1.a) := by
    rw [s.ps, List.getD_eq_getElem?_getD, List.getElem?_map]
    rcases zs[i]? with _ | _ | z <;> rfl
  rw [e1, e2]
  rcases hz : zs[i]? with _ | _ | z
  · exact .inl ⟨rfl, rfl⟩
  · exact .inl ⟨rfl, rfl⟩
  · have hm : some z ∈ zs := List.mem_of_getElem? hz
    exact .inr ⟨z, rfl, rfl, rfl, (s.ok z hm).ne, s.ok z hm⟩

/-- The same device with one session changed. -/
theorem WRep.replace {F : Blocks} {h h' : Heap} {w : World} {ps : List ℕ} {zs : List (Option (SnPtr × Sn))} (s : WRep h0 h F dvp w ps zs)
    {i : ℕ} {z : SnPtr × Sn} (hz : zs[i]? = some (some z)) (o : Option (SnPtr × Sn))
    (ho : ∀ z', o = some z' → SnOk dvp w.d.spriv z') {r : DeviceRec} {istr : ℕ} {ns : List Node}
    (hr : Rep h0 h dvp w.d (allB zs + F) r istr w.prologue (xbase w.d.spriv).toList ns) (hst : r.states = w.next)
    (hs : Sep h0 h' (o.elim 0 snB + (devBlocks dvp r istr w.d w.prologue (xbase w.d.spriv).toList (headOf ns) + cells ns +
      bodies ns + (allB (zs.set i none) + F)))) :
    WRep h0 h' F dvp { w with sns := w.sns.set i (o.map Prod.snd) } (ps.set i (ptrOf o)) (zs.set i o) := by
  refine ⟨?_, ?_, ?_, ⟨r, istr, ns, hr.with ?_, hst⟩⟩
  · simp only [s.sns, List.map_set]
  · simp only [s.ps, List.map_set]
  · intro z' hz'
    rcases List.mem_or_eq_of_mem_set hz' with h | h
    · exact s.ok z' h
    · exact ho z' h.symm
  · rw [(allB_set hz o).2]
    convert hs using 1
    abel

/-- A step on the heap is the step on values. -/
theorem WRep.step {F : Blocks} {h : Heap} {w : World} {ps : List ℕ} {zs : List (Option (SnPtr × Sn))} (s : WRep h0 h F dvp w ps zs)
    (op : Spec.SessionMem.Op) :
    ∃ ps' h' zs', stepAt dvp ps op h = .ok (((w.step op).1, ps'), h') ∧ WRep h0 h' F dvp (w.step op).2 ps' zs' := by
  obtain ⟨r, istr, ns, hr, hst⟩ := s.rep
  have same : ∀ i, ∀ p, ps.getD i 0 = p → p ≠ 0 → ps.set i p = ps := by
    intro i p hp hne
    subst hp
    apply List.ext_getElem?
    intro j
    rw [List.getElem?_set]
    split
    · rename_i hij
      subst hij
      split
      · rename_i hlt
        simp [hlt]
      · rename_i hlt
        simp [hlt]
    · rfl
  cases op with
  | dev o =>
    obtain ⟨h', e, s'⟩ := hr.call o
    refine ⟨ps, h', zs, by simp only [stepAt, run_bind, e, C.ok_bind, World.step]; rfl, s.sns, s.ps, ?_, ?_⟩
    · intro z hz
      simp only [World.step]
      rw [(step_keys w.d o).2.1]
      exact s.ok z hz
    · simp only [World.step]
      rw [(step_keys w.d o).2.1, ← hst]
      exact s'
  | openTo pid epriv =>
    obtain ⟨a, h', e, hm⟩ := hr.createInit rfl w rfl rfl hst pid epriv
    simp only [World.step]
    rcases hc : createInitiator w.device pid epriv with ⟨_ | sn, dv⟩
    · rw [hc] at hm
      obtain ⟨rfl, rfl⟩ := hm
      refine ⟨ps ++ [0], h', zs ++ [none], by simp [stepAt, run_bind, e, World.push]; rfl, ?_, ?_, ?_, ?_⟩
      · simp [World.push, s.sns]
      · simp [s.ps, ptrOf]
      · intro z hz
        exact s.ok z (by simpa using hz)
      · rw [allB_append]
        simp only [Option.elim_none, zero_add, World.push]
        exact ⟨r, istr, ns, hr, hst⟩
    · rw [hc] at hm
      obtain ⟨hdv, x, hx, hok, hr'⟩ := hm
      subst hx
      refine ⟨ps ++ [x.a], h', zs ++ [some (x, ⟨sn, w.next, w.d.name, w.peerName pid, false⟩)],
        by simp only [stepAt, run_bind, e, C.ok_bind, World.push, run_pure, (bne_iff_ne.mpr hok.ne : (x.a != 0) = true)], ?_, ?_, ?_, ?_⟩
      · simp [World.push, s.sns]
      · simp [s.ps, ptrOf]
      · intro z hz
        rcases List.mem_append.mp hz with hz | hz
        · exact s.ok z hz
        · simp only [List.mem_singleton, Option.some.injEq] at hz
          subst hz
          exact hok
      · rw [allB_append, add_assoc]
        simp only [Option.elim_some, World.push, hdv]
        exact ⟨_, istr, ns, hr', rfl⟩
  | accept epriv =>
    obtain ⟨a, h', e, hm⟩ := hr.createResp rfl w rfl rfl hst epriv
    simp only [World.step]
    rcases hc : createResponder w.device epriv with ⟨_ | sn, dv⟩
    · rw [hc] at hm
      obtain ⟨rfl, rfl⟩ := hm
      refine ⟨ps ++ [0], h', zs ++ [none], by simp [stepAt, run_bind, e, World.push]; rfl, ?_, ?_, ?_, ?_⟩
      · simp [World.push, s.sns]
      · simp [s.ps, ptrOf]
      · intro z hz
        exact s.ok z (by simpa using hz)
      · rw [allB_append]
        simp only [Option.elim_none, zero_add, World.push]
        exact ⟨r, istr, ns, hr, hst⟩
    · rw [hc] at hm
      obtain ⟨hdv, x, hx, hok, hr'⟩ := hm
      subst hx
      refine ⟨ps ++ [x.a], h', zs ++ [some (x, ⟨sn, w.next, w.d.name, [], false⟩)],
        by simp only [stepAt, run_bind, e, C.ok_bind, World.push, run_pure, (bne_iff_ne.mpr hok.ne : (x.a != 0) = true)], ?_, ?_, ?_, ?_⟩
      · simp [World.push, s.sns]
      · simp [s.ps, ptrOf]
      · intro z hz
        rcases List.mem_append.mp hz with hz | hz
        · exact s.ok z hz
        · simp only [List.mem_singleton, Option.some.injEq] at hz
          subst hz
          exact hok
      · rw [allB_append, add_assoc]
        simp only [Option.elim_some, World.push, hdv]
        exact ⟨_, istr, ns, hr', rfl⟩
  | send i conf msg =>
    rcases s.get i with ⟨h1, h2⟩ | ⟨z, hz, h1, h2, h3, hok⟩
    · exact ⟨ps, h, zs, by simp only [stepAt, h2, if_true, World.step, h1, run_pure], by simpa only [World.step, h1] using s⟩
    · have hsep : Sep h0 h (core z.1.a z.1.r z.1.spriv z.1.spub z.2.s.st + ({(z.1.r.pinfo, .str z.1.pstr)} +
          (strBlock z.1.pstr z.1.pname + ({(z.1.r.info, .str z.1.istr)} + strBlock z.1.istr z.2.name)) +
          (devBlocks dvp r istr w.d w.prologue (xbase w.d.spriv).toList (headOf ns) + cells ns + bodies ns +
            (allB (zs.set i none) + F)))) := by
        convert hr.sep using 1
        rw [(allB_set hz none).1, snB]
        abel
      obtain ⟨o, h', L', e, s', st', g1, g2, g3, rfl, rfl⟩ := sendAt_tri (L := _) hok.st hok.role conf msg h hsep
      have hok' : SnOk dvp w.d.spriv (({ z.1 with r := { z.1.r with st := st' } } : SnPtr),
          ({ z.2 with s := (sessionWrite (pack conf msg) z.2.s).2.2 } : Sn)) :=
        ⟨hok.ne, g1, hok.role.trans g2.symm, hok.pid.trans g3.symm, hok.id, hok.dv, hok.istr, hok.pstr,
          hok.peer.write _ g2 g3, hok.spriv⟩
      have := s.replace hz (some _) (fun z' h => by injection h with h; rw [← h]; exact hok') hr hst (h' := h') (by
        convert s' using 1
        simp only [Option.elim_some, snB]
        abel)
      have hw : w.step (.send i conf msg) = (.sent (sessionWrite (pack conf msg) z.2.s).1 (sessionWrite (pack conf msg) z.2.s).2.1,
          { w with sns := w.sns.set i (some { z.2 with s := (sessionWrite (pack conf msg) z.2.s).2.2 }) }) := by
        simp only [World.step, h1]
      have hps : ps.set i z.1.a = ps := same i _ h2 hok.ne
      rw [hw]
      refine ⟨ps, h', _, ?_, hps ▸ this⟩
      simp only [stepAt, h2, hok.ne, if_false, run_bind, e, C.ok_bind, run_pure]
  | recv i auth input =>
    rcases s.get i with ⟨h1, h2⟩ | ⟨z, hz, h1, h2, h3, hok⟩
    · exact ⟨ps, h, zs, by simp only [stepAt, h2, if_true, World.step, h1, run_pure], by simpa only [World.step, h1] using s⟩
    · have hsep : Sep h0 h (core z.1.a z.1.r z.1.spriv z.1.spub z.2.s.st + ({(z.1.r.pinfo, .str z.1.pstr)} +
          (strBlock z.1.pstr z.1.pname + (devBlocks dvp r istr w.d w.prologue (xbase w.d.spriv).toList (headOf ns) +
            cells ns + bodies ns + (({(z.1.r.info, .str z.1.istr)} + strBlock z.1.istr z.2.name) + (allB (zs.set i none) + F)))))) := by
        convert hr.sep using 1
        rw [(allB_set hz none).1, snB]
        abel
      obtain ⟨o, h', L', e, s', st', pstr', pname', g1, g2, g3, g4, rfl, rfl⟩ := recvAt_tri (d := w.d) (r := r) (istr := istr)
        (prlg := w.prologue) (pub := (xbase w.d.spriv).toList) (ns := ns) hok.st hok.role hok.pid hok.pstr
        hok.peer hok.dv ⟨Multiset.le_add_right _ _, hr.name, hr.nodes, hr.peers, hr.ids⟩ auth input h hsep
      have hok' : SnOk dvp w.d.spriv (({ z.1 with
            r := { z.1.r with pid := (sessionRead w.device.peers z.2.s input).2.2.pid, st := st' },
            pstr := pstr', pname := pname' } : SnPtr),
          w.after z.2 (sessionRead w.device.peers z.2.s input).1 (sessionRead w.device.peers z.2.s input).2.2) :=
        ⟨hok.ne, g1, hok.role.trans g2.symm, rfl, hok.id, hok.dv, hok.istr, g3, g4, hok.spriv⟩
      have := s.replace hz (some _) (fun z' h => by injection h with h; rw [← h]; exact hok') hr hst (h' := h') (by
        convert s' using 1
        simp only [Option.elim_some, snB, World.after, World.device]
        abel)
      have hw : w.step (.recv i auth input) = (.received (sessionRead w.device.peers z.2.s input).1
          ((sessionRead w.device.peers z.2.s input).2.1.bind (unpack auth)),
          { w with sns := w.sns.set i (some (w.after z.2 (sessionRead w.device.peers z.2.s input).1
            (sessionRead w.device.peers z.2.s input).2.2)) }) := by
        simp only [World.step, h1]
      have hps : ps.set i z.1.a = ps := same i _ h2 hok.ne
      rw [hw]
      refine ⟨ps, h', _, ?_, hps ▸ this⟩
      simp only [stepAt, h2, hok.ne, if_false, run_bind, e, C.ok_bind, run_pure]
      rfl
  | inspect i =>
    rcases s.get i with ⟨h1, h2⟩ | ⟨z, hz, h1, h2, h3, hok⟩
    · exact ⟨ps, h, zs, by simp only [stepAt, h2, if_true, World.step, h1, run_pure], by simpa only [World.step, h1] using s⟩
    · obtain ⟨o, h', L', e, s', rfl, rfl⟩ := inspectAt_tri (h0 := h0) hok (K := devBlocks dvp r istr w.d w.prologue
        (xbase w.d.spriv).toList (headOf ns) + cells ns + bodies ns + (allB (zs.set i none) + F)) h (by
          convert hr.sep using 1
          rw [(allB_set hz none).1]
          abel)
      refine ⟨ps, h', zs, ?_, ?_⟩
      · simp only [stepAt, h2, hok.ne, if_false, run_bind, e, C.ok_bind, World.step, h1, run_pure]
      · simp only [World.step, h1]
        refine ⟨s.sns, s.ps, s.ok, r, istr, ns, hr.with ?_, hst⟩
        convert s' using 1
        rw [(allB_set hz none).1]
        abel
  | close i =>
    rcases s.get i with ⟨h1, h2⟩ | ⟨z, hz, h1, h2, h3, hok⟩
    · exact ⟨ps, h, zs, by simp only [stepAt, h2, if_true, World.step, h1, run_pure], by simpa only [World.step, h1] using s⟩
    · obtain ⟨h', e, s', -⟩ := sessionFree_drop (h0 := h0) hok (K := devBlocks dvp r istr w.d w.prologue
        (xbase w.d.spriv).toList (headOf ns) + cells ns + bodies ns + (allB (zs.set i none) + F)) h (by
          convert hr.sep using 1
          rw [(allB_set hz none).1]
          abel)
      refine ⟨ps.set i 0, h', zs.set i none, ?_, ?_⟩
      · simp only [stepAt, h2, hok.ne, if_false, run_bind, e, C.ok_bind, World.step, h1, run_pure]
      · simp only [World.step, h1]
        exact s.replace hz none (fun _ h => by cases h) hr hst (by simpa using s')

/-- A run on the heap is the run on values. -/
theorem WRep.run {F : Blocks} (os : List Spec.SessionMem.Op) {h : Heap} {w : World} {ps : List ℕ} {zs : List (Option (SnPtr × Sn))}
    (s : WRep h0 h F dvp w ps zs) :
    ∃ ps' h' zs', runAt dvp ps os h = .ok (((w.run os).1, ps'), h') ∧ WRep h0 h' F dvp (w.run os).2 ps' zs' := by
  induction os generalizing h w ps zs with
  | nil => exact ⟨ps, h, zs, rfl, s⟩
  | cons o os ih =>
    obtain ⟨ps1, h1, zs1, e1, s1⟩ := s.step o
    obtain ⟨ps2, h2, zs2, e2, s2⟩ := ih s1
    exact ⟨ps2, h2, zs2, by simp only [runAt, run_bind, e1, C.ok_bind, e2, run_pure, World.run], s2⟩

/-- Closing a session that is open. -/
theorem WRep.close {F : Blocks} {h : Heap} {w : World} {ps : List ℕ} {zs : List (Option (SnPtr × Sn))} (s : WRep h0 h F dvp w ps zs)
    {i : ℕ} {x : Sn} (hx : w.sn i = some x) :
    ∃ h' z, stepAt dvp ps (.close i) h = .ok ((.closed, ps.set i 0), h') ∧ z.2 = x ∧ SnOk dvp w.d.spriv z ∧
      ∀ a b, (a, b) ∈ snB z → b ∈ h'.released := by
  obtain ⟨r, istr, ns, hr, hst⟩ := s.rep
  rcases s.get i with ⟨h1, h2⟩ | ⟨z, hz, h1, h2, h3, hok⟩
  · rw [hx] at h1; cases h1
  · obtain ⟨h', e, s', hrel⟩ := sessionFree_drop (h0 := h0) hok (K := devBlocks dvp r istr w.d w.prologue
        (xbase w.d.spriv).toList (headOf ns) + cells ns + bodies ns + (allB (zs.set i none) + F)) h (by
          convert hr.sep using 1
          rw [(allB_set hz none).1]
          abel)
    refine ⟨h', z, ?_, by rw [hx] at h1; injection h1 with h1; exact h1.symm, hok, fun a b hb => hrel b (.inl ⟨a, hb⟩)⟩
    simp only [stepAt, h2, hok.ne, if_false, run_bind, e, C.ok_bind, run_pure]

theorem runAt_snoc {dvp : ℕ} (os : List Spec.SessionMem.Op) (o : Spec.SessionMem.Op) {ps ps' ps'' : List ℕ} {h h' h'' : Heap}
    {outs : List Spec.SessionMem.Out} {out : Spec.SessionMem.Out} (e : runAt dvp ps os h = .ok ((outs, ps'), h'))
    (e' : stepAt dvp ps' o h' = .ok ((out, ps''), h'')) :
    runAt dvp ps (os ++ [o]) h = .ok ((outs ++ [out], ps''), h'') := by
  induction os generalizing ps h outs with
  | nil =>
    simp only [runAt, run_pure, C.ok.injEq, Prod.mk.injEq] at e
    obtain ⟨⟨rfl, rfl⟩, rfl⟩ := e
    simp only [List.nil_append, runAt, run_bind, e', C.ok_bind, run_pure]
  | cons a os ih =>
    simp only [runAt, run_bind] at e
    obtain ⟨⟨⟨o1, ps1⟩, h1⟩, e1, e2⟩ := C.bind_eq_ok.mp e
    obtain ⟨⟨⟨o2, ps2⟩, h2⟩, e3, e4⟩ := C.bind_eq_ok.mp e2
    simp only [run_pure, C.ok.injEq, Prod.mk.injEq] at e4
    obtain ⟨⟨rfl, rfl⟩, rfl⟩ := e4
    simp only [List.cons_append, runAt, run_bind, e1, C.ok_bind, ih e3, run_pure]

/-! ### Facts about runs on values -/

theorem World.step_const (w : World) (op : Spec.SessionMem.Op) :
    (w.step op).2.d.name = w.d.name ∧ (w.step op).2.d.spriv = w.d.spriv ∧ (w.step op).2.prologue = w.prologue := by
  cases op with
  | dev o => exact ⟨(step_keys w.d o).2.2, (step_keys w.d o).2.1, rfl⟩
  | openTo pid epriv =>
    simp only [World.step, World.push]
    rcases createInitiator w.device pid epriv with ⟨_ | sn, dv⟩ <;> exact ⟨rfl, rfl, rfl⟩
  | accept epriv =>
    simp only [World.step, World.push]
    rcases createResponder w.device epriv with ⟨_ | sn, dv⟩ <;> exact ⟨rfl, rfl, rfl⟩
  | send i conf msg => simp only [World.step]; rcases w.sn i with _ | x <;> exact ⟨rfl, rfl, rfl⟩
  | recv i auth input => simp only [World.step]; rcases w.sn i with _ | x <;> exact ⟨rfl, rfl, rfl⟩
  | inspect i => simp only [World.step]; rcases w.sn i with _ | x <;> exact ⟨rfl, rfl, rfl⟩
  | close i => simp only [World.step]; rcases w.sn i with _ | x <;> exact ⟨rfl, rfl, rfl⟩

theorem World.run_const (os : List Spec.SessionMem.Op) (w : World) :
    (w.run os).2.d.name = w.d.name ∧ (w.run os).2.d.spriv = w.d.spriv ∧ (w.run os).2.prologue = w.prologue := by
  induction os generalizing w with
  | nil => exact ⟨rfl, rfl, rfl⟩
  | cons o os ih =>
    obtain ⟨h1, h2, h3⟩ := ih (w.step o).2
    obtain ⟨g1, g2, g3⟩ := World.step_const w o
    exact ⟨h1.trans g1, h2.trans g2, h3.trans g3⟩

theorem World.run_append (xs ys : List Spec.SessionMem.Op) (w : World) :
    w.run (xs ++ ys) = ((w.run xs).1 ++ ((w.run xs).2.run ys).1, ((w.run xs).2.run ys).2) := by
  induction xs generalizing w with
  | nil => rfl
  | cons o os ih => simp only [List.cons_append, World.run, ih]

/-- Numbers of the sessions are below the next one and grow from session to session. -/
def NumsOk (w : World) : Prop :=
  (∀ o ∈ w.sns, ∀ x, o = some x → x.id < w.next) ∧ w.sns.Pairwise fun o o' => ∀ x x', o = some x → o' = some x' → x.id < x'.id

theorem NumsOk.set {w : World} (h : NumsOk w) {i : ℕ} {x : Sn} (hx : w.sn i = some x) (o : Option Sn)
    (ho : ∀ y, o = some y → y.id = x.id) : NumsOk { w with sns := w.sns.set i o } := by
  have hi : w.sns[i]? = some (some x) := by
    unfold World.sn at hx
    rcases hw : w.sns[i]? with _ | _ | y
    · rw [hw] at hx; cases hx
    · rw [hw] at hx; cases hx
    · rw [hw] at hx
      rw [show (some (some y)).join = some y from rfl] at hx
      rw [hx]
  refine ⟨fun o' ho' y hy => ?_, ?_⟩
  · rcases List.mem_or_eq_of_mem_set ho' with h' | h'
    · exact h.1 o' h' y hy
    · rw [ho y (h' ▸ hy)]
      exact h.1 _ (List.mem_of_getElem? hi) x rfl
  · rw [List.pairwise_iff_getElem]
    intro a b ha hb hab y y' hy hy'
    simp only [List.length_set] at ha hb
    have key := List.pairwise_iff_getElem.mp h.2
    simp only [List.getElem_set] at hy hy'
    have hi' := List.getElem?_eq_some_iff.mp hi
    obtain ⟨hlt, hi'⟩ := hi'
    split at hy
    · rename_i e
      subst e
      rw [if_neg (by omega)] at hy'
      rw [ho y hy]
      exact key i b hlt hb hab x y' hi' hy'
    · split at hy'
      · rename_i e
        subst e
        rw [ho y' hy']
        exact key a i ha hlt hab y x hy hi'
      · exact key a b ha hb hab y y' hy hy'

theorem NumsOk.push {w : World} (h : NumsOk w) (hn : w.next < 4294967295) (x : Sn) (hx : x.id = w.next) :
    NumsOk { w with next := w.next + 1, sns := w.sns ++ [some x] } := by
  have hlt : w.next < w.next + 1 := by
    have := UInt32.lt_iff_toNat_lt.mp hn
    rw [UInt32.lt_iff_toNat_lt, UInt32.toNat_add]
    simp only [UInt32.reduceToNat] at this ⊢
    omega
  refine ⟨fun o ho y hy => ?_, ?_⟩
  · rcases List.mem_append.mp ho with ho | ho
    · exact UInt32.lt_trans (h.1 o ho y hy) hlt
    · simp only [List.mem_singleton] at ho
      subst ho
      injection hy with hy
      rw [← hy, hx]
      exact hlt
  · simp only
    rw [List.pairwise_append]
    refine ⟨h.2, by simp, fun o ho o' ho' y y' hy hy' => ?_⟩
    simp only [List.mem_singleton] at ho'
    subst ho'
    injection hy' with hy'
    rw [← hy', hx]
    exact h.1 o ho y hy

theorem NumsOk.refuse {w : World} (h : NumsOk w) : NumsOk { w with sns := w.sns ++ [none] } := by
  refine ⟨fun o ho y hy => ?_, ?_⟩
  · rcases List.mem_append.mp ho with ho | ho
    · exact h.1 o ho y hy
    · simp only [List.mem_singleton] at ho
      subst ho
      cases hy
  · simp only
    rw [List.pairwise_append]
    refine ⟨h.2, by simp, fun o ho o' ho' y y' hy hy' => ?_⟩
    simp only [List.mem_singleton] at ho'
    subst ho'
    cases hy'

theorem NumsOk.step {w : World} (h : NumsOk w) (op : Spec.SessionMem.Op) : NumsOk (w.step op).2 := by
  have hlt : w.next ≠ 4294967295 → w.next < 4294967295 := by
    intro hne
    have h1 : w.next.toNat ≠ 4294967295 := fun e => hne (UInt32.toNat_inj.mp e)
    have h2 := w.next.toNat_lt
    rw [UInt32.lt_iff_toNat_lt]
    simp only [UInt32.reduceToNat]
    omega
  cases op with
  | dev o => exact h
  | openTo pid epriv =>
    simp only [World.step, World.push]
    by_cases hc : w.next = 4294967295
    · have : createInitiator w.device pid epriv = (none, w.device) := by
        unfold createInitiator; exact if_pos hc
      rw [this]; exact h.refuse
    · rcases hr : createInitiator w.device pid epriv with ⟨_ | sn, dv⟩
      · exact h.refuse
      · have : dv.statesCounter = w.next + 1 := by
          unfold createInitiator at hr
          rw [if_neg (show ¬ w.device.statesCounter = 4294967295 from hc)] at hr
          revert hr
          generalize (if pid = 0 then none else w.device.peers.find? fun p => p.id == pid) = f
          cases f <;> intro hr <;> cases hr
          rfl
        simp only [this]
        exact h.push (hlt hc) _ rfl
  | accept epriv =>
    simp only [World.step, World.push]
    by_cases hc : w.next = 4294967295
    · have : createResponder w.device epriv = (none, w.device) := by
        unfold createResponder; exact if_pos hc
      rw [this]; exact h.refuse
    · rcases hr : createResponder w.device epriv with ⟨_ | sn, dv⟩
      · exact h.refuse
      · have : dv.statesCounter = w.next + 1 := by
          unfold createResponder at hr
          rw [if_neg (show ¬ w.device.statesCounter = 4294967295 from hc)] at hr
          cases hr
          rfl
        simp only [this]
        exact h.push (hlt hc) _ rfl
  | send i conf msg =>
    simp only [World.step]
    rcases hx : w.sn i with _ | x
    · exact h
    · exact h.set hx _ fun y hy => by injection hy with hy; rw [← hy]
  | recv i auth input =>
    simp only [World.step]
    rcases hx : w.sn i with _ | x
    · exact h
    · exact h.set hx _ fun y hy => by injection hy with hy; rw [← hy]; rfl
  | inspect i => simp only [World.step]; rcases hx : w.sn i with _ | x <;> exact h
  | close i =>
    simp only [World.step]
    rcases hx : w.sn i with _ | x
    · exact h
    · exact h.set hx _ fun y hy => by cases hy

theorem NumsOk.run (os : List Spec.SessionMem.Op) {w : World} (h : NumsOk w) : NumsOk (w.run os).2 := by
  induction os generalizing w with
  | nil => exact h
  | cons o os ih => exact ih (h.step o)

end

end Verif.Noise.Mem
