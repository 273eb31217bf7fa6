import Verif.Model.PeerNoise
import Verif.Proofs.SessionRun

/-!
# Freed addresses stay free

No function hands out an address that was used before.
-/

set_option linter.unusedSectionVars false

namespace Verif.Noise.Mem

/-- Addresses that were used and are free stay free. -/
def Keeps {α : Type} (m : M α) : Prop :=
  ∀ h a h', m h = .ok (a, h') → h.next ≤ h'.next ∧ ∀ x, x < h.next → h.mem x = none → h'.mem x = none

section
variable {α β : Type}

theorem Keeps.bind {m : M α} {f : α → M β} (h1 : Keeps m) (h2 : ∀ a, Keeps (f a)) : Keeps (m >>= f) := by
  intro h b h' e
  rw [run_bind] at e
  obtain ⟨⟨a, h1'⟩, e1, e2⟩ := C.bind_eq_ok.mp e
  obtain ⟨l1, k1⟩ := h1 _ _ _ e1
  obtain ⟨l2, k2⟩ := h2 _ _ _ _ e2
  exact ⟨le_trans l1 l2, fun x hx hm => k2 x (lt_of_lt_of_le hx l1) (k1 x hx hm)⟩

theorem Keeps.pure (a : α) : Keeps (Pure.pure a : M α) := by
  intro h b h' e
  rw [run_pure] at e
  cases e
  exact ⟨le_refl _, fun _ _ h => h⟩

theorem Keeps.ub (u : UB) : Keeps (Mem.ub u : M α) := by
  intro h b h' e
  cases e

theorem Keeps.alloc (b : Block) : Keeps (Mem.alloc b) := by
  intro h a h' e
  cases e
  refine ⟨Nat.le_succ _, fun x hx hm => ?_⟩
  simp only
  rw [Function.update_of_ne (by omega)]
  exact hm

theorem Keeps.free (a : ℕ) : Keeps (Mem.free a) := by
  intro h u h' e
  unfold Mem.free at e
  split at e
  · cases e
    exact ⟨le_refl _, fun _ _ h => h⟩
  · split at e
    · cases e
    · cases e
      refine ⟨le_refl _, fun x _ hm => ?_⟩
      simp only [Function.update_apply]
      split
      · rfl
      · exact hm

theorem Keeps.load (a : ℕ) : Keeps (Mem.load a) := by
  intro h u h' e
  unfold Mem.load at e
  split at e
  · cases e
  · split at e
    · cases e
    · cases e
      exact ⟨le_refl _, fun _ _ h => h⟩

theorem Keeps.store (a : ℕ) (b : Block) : Keeps (Mem.store a b) := by
  intro h u h' e
  unfold Mem.store at e
  split at e
  · cases e
  · split at e
    · cases e
    · rename_i b' hb
      cases e
      refine ⟨le_refl _, fun x _ hm => ?_⟩
      simp only [Function.update_apply]
      split
      · rename_i hx
        rw [hx, hb] at hm
        cases hm
      · exact hm

theorem Keeps.ite {p : Prop} [Decidable p] {m m' : M α} (h1 : Keeps m) (h2 : Keeps m') : Keeps (if p then m else m') := by
  split <;> assumption

end

/-- Follows the structure of a function. -/
macro "keeps" : tactic => `(tactic| repeat' first
  | with_reducible assumption
  | with_reducible exact Keeps.pure _
  | with_reducible exact Keeps.ub _
  | with_reducible exact Keeps.alloc _
  | with_reducible exact Keeps.free _
  | with_reducible exact Keeps.load _
  | with_reducible exact Keeps.store _ _
  | with_reducible refine Keeps.bind ?_ fun _ => ?_
  | with_reducible refine Keeps.ite ?_ ?_
  | split)

theorem keeps_loadCell (a : ℕ) : Keeps (loadCell a) := by unfold loadCell; keeps
theorem keeps_loadPeer (a : ℕ) : Keeps (loadPeer a) := by unfold loadPeer; keeps
theorem keeps_loadStr (a : ℕ) : Keeps (loadStr a) := by unfold loadStr; keeps
theorem keeps_loadBytes (a : ℕ) : Keeps (loadBytes a) := by unfold loadBytes; keeps
theorem keeps_loadHead (a : ℕ) : Keeps (loadHead a) := by unfold loadHead; keeps
theorem keeps_loadDevice (a : ℕ) : Keeps (loadDevice a) := by unfold loadDevice; keeps
theorem keeps_loadSession (a : ℕ) : Keeps (loadSession a) := by unfold loadSession; keeps
theorem keeps_loadEncap (a : ℕ) : Keeps (loadEncap a) := by unfold loadEncap; keeps
theorem keeps_loadWord (a : ℕ) : Keeps (loadWord a) := by unfold loadWord; keeps

macro "keeps1" : tactic => `(tactic| repeat' first
  | with_reducible assumption
  | with_reducible exact Keeps.pure _
  | with_reducible exact Keeps.ub _
  | with_reducible exact Keeps.alloc _
  | with_reducible exact Keeps.free _
  | with_reducible exact Keeps.load _
  | with_reducible exact Keeps.store _ _
  | with_reducible exact keeps_loadCell _
  | with_reducible exact keeps_loadPeer _
  | with_reducible exact keeps_loadStr _
  | with_reducible exact keeps_loadBytes _
  | with_reducible exact keeps_loadHead _
  | with_reducible exact keeps_loadDevice _
  | with_reducible exact keeps_loadSession _
  | with_reducible exact keeps_loadEncap _
  | with_reducible exact keeps_loadWord _
  | with_reducible refine Keeps.bind ?_ fun _ => ?_
  | with_reducible refine Keeps.ite ?_ ?_
  | split)

theorem keeps_loadN (a n : ℕ) : Keeps (loadN a n) := by unfold loadN; keeps1
theorem keeps_freeSome (p : ℕ) : Keeps (freeSome p) := by unfold freeSome; keeps1
theorem keeps_copyStr (s : Bytes) : Keeps (copyStr s) := by unfold copyStr; keeps1
theorem keeps_storedStr (p : ℕ) : Keeps (storedStr p) := by unfold storedStr; keeps1
theorem keeps_calloc (n : ℕ) : Keeps (calloc n) := Keeps.alloc _
theorem keeps_writeAt (a off : ℕ) (b : Bytes) : Keeps (writeAt a off b) := by unfold writeAt; keeps1

theorem keeps_findLoop (test : UInt32 × ℕ × ℕ → M Bool) (ht : ∀ x, Keeps (test x)) (fuel : ℕ) :
    ∀ p, Keeps (findLoop test fuel p) := by
  induction fuel with
  | zero => intro p; exact Keeps.ub _
  | succ n ih =>
    intro p
    unfold findLoop
    refine Keeps.ite (Keeps.pure _) (Keeps.bind (keeps_loadCell _) fun c => Keeps.bind (keeps_loadPeer _) fun x =>
      Keeps.bind (ht x) fun b => ?_)
    exact Keeps.ite (Keeps.pure _) (ih _)

theorem keeps_find (test : UInt32 × ℕ × ℕ → M Bool) (ht : ∀ x, Keeps (test x)) (p : ℕ) : Keeps (find test p) :=
  fun h a h' e => keeps_findLoop test ht _ p h a h' e

theorem keeps_cellData (p : ℕ) : Keeps (cellData p) := by unfold cellData; keeps1

theorem keeps_sameStatic (s : Bytes) (x : UInt32 × ℕ × ℕ) : Keeps (sameStatic s x) := by
  unfold sameStatic
  exact Keeps.bind (keeps_loadN _ _) fun _ => Keeps.pure _

macro "keeps2" : tactic => `(tactic| repeat' first
  | with_reducible assumption
  | with_reducible exact Keeps.pure _
  | with_reducible exact Keeps.ub _
  | with_reducible exact Keeps.alloc _
  | with_reducible exact Keeps.free _
  | with_reducible exact Keeps.load _
  | with_reducible exact Keeps.store _ _
  | with_reducible exact keeps_loadCell _
  | with_reducible exact keeps_loadPeer _
  | with_reducible exact keeps_loadStr _
  | with_reducible exact keeps_loadBytes _
  | with_reducible exact keeps_loadHead _
  | with_reducible exact keeps_loadDevice _
  | with_reducible exact keeps_loadSession _
  | with_reducible exact keeps_loadEncap _
  | with_reducible exact keeps_loadWord _
  | with_reducible exact keeps_loadN _ _
  | with_reducible exact keeps_freeSome _
  | with_reducible exact keeps_copyStr _
  | with_reducible exact keeps_storedStr _
  | with_reducible exact keeps_calloc _
  | with_reducible exact keeps_writeAt _ _ _
  | with_reducible exact keeps_cellData _
  | with_reducible exact keeps_find _ (fun _ => keeps_sameStatic _ _) _
  | with_reducible exact keeps_find _ (fun _ => Keeps.pure _) _
  | with_reducible refine Keeps.bind ?_ fun _ => ?_
  | with_reducible refine Keeps.ite ?_ ?_
  | split)

theorem keeps_loadBuf (p n : ℕ) : Keeps (loadBuf p n) := by unfold loadBuf; keeps2
theorem keeps_lookupById (dvp : ℕ) (id : UInt32) : Keeps (lookupById dvp id) := by unfold lookupById; keeps2
theorem keeps_addPeer (dvp : ℕ) (n : Option Bytes) (rs : B32) : Keeps (addPeer dvp n rs) := by unfold addPeer; keeps2
theorem keeps_peerGetId (pp : ℕ) : Keeps (peerGetId pp) := by unfold peerGetId; keeps2
theorem keeps_peerGetInfo (pp : ℕ) : Keeps (peerGetInfo pp) := by unfold peerGetInfo; keeps2
theorem keeps_copyOf (p : ℕ) : Keeps (copyOf p) := by unfold copyOf; keeps2
theorem keeps_packMsg (c : ℕ) (m : Bytes) : Keeps (packMsg c m) := by unfold packMsg; keeps2
theorem keeps_encapFree (p : ℕ) : Keeps (encapFree p) := by unfold encapFree; keeps2
theorem keeps_unpackMsg (c p : ℕ) : Keeps (unpackMsg c p) := by unfold unpackMsg; keeps2
theorem keeps_copyKey (p : ℕ) : Keeps (copyKey p) := by unfold copyKey; keeps2
theorem keeps_sessionFree (p : ℕ) : Keeps (sessionFree p) := by unfold sessionFree; keeps2
theorem keeps_finish (p : ℕ) (r : Except Err SessionRec) : Keeps (finish p r) := by unfold finish; keeps2
theorem keeps_getKey (p : ℕ) : Keeps (getKey p) := by unfold getKey; keeps2
theorem keeps_getPeerId (p : ℕ) : Keeps (getPeerId p) := by unfold getPeerId; keeps2

section
variable [Hashes] [NoiseCrypto]

theorem keeps_mixHashAt (p : ℕ) (x : Bytes) : Keeps (mixHashAt p x) := by unfold mixHashAt; keeps2
theorem keeps_mixDhAt (a b c d : ℕ) : Keeps (mixDhAt a b c d) := by unfold mixDhAt; keeps2
theorem keeps_encryptAndHashAt (m : Bytes) (a b c d : ℕ) (n : UInt64) : Keeps (encryptAndHashAt m a b c d n) := by
  unfold encryptAndHashAt; keeps2
theorem keeps_decryptAndHashAt (m : Bytes) (a c d : ℕ) (n : UInt64) : Keeps (decryptAndHashAt a m c d n) := by
  unfold decryptAndHashAt; keeps2
theorem keeps_splitAt (r : Role) (p : HsPtr) : Keeps (splitAt r p) := by
  unfold splitAt; keeps2

macro "keeps3" : tactic => `(tactic| repeat' first
  | with_reducible assumption
  | with_reducible exact Keeps.pure _
  | with_reducible exact Keeps.ub _
  | with_reducible exact Keeps.alloc _
  | with_reducible exact Keeps.free _
  | with_reducible exact Keeps.store _ _
  | with_reducible exact keeps_loadPeer _
  | with_reducible exact keeps_loadStr _
  | with_reducible exact keeps_loadHead _
  | with_reducible exact keeps_loadDevice _
  | with_reducible exact keeps_loadSession _
  | with_reducible exact keeps_loadEncap _
  | with_reducible exact keeps_loadWord _
  | with_reducible exact keeps_loadN _ _
  | with_reducible exact keeps_freeSome _
  | with_reducible exact keeps_storedStr _
  | with_reducible exact keeps_calloc _
  | with_reducible exact keeps_writeAt _ _ _
  | with_reducible exact keeps_cellData _
  | with_reducible exact keeps_find _ (fun _ => keeps_sameStatic _ _) _
  | with_reducible exact keeps_loadBuf _ _
  | with_reducible exact keeps_lookupById _ _
  | with_reducible exact keeps_addPeer _ _ _
  | with_reducible exact keeps_peerGetId _
  | with_reducible exact keeps_peerGetInfo _
  | with_reducible exact keeps_copyOf _
  | with_reducible exact keeps_packMsg _ _
  | with_reducible exact keeps_encapFree _
  | with_reducible exact keeps_unpackMsg _ _
  | with_reducible exact keeps_copyKey _
  | with_reducible exact keeps_sessionFree _
  | with_reducible exact keeps_finish _ _
  | with_reducible exact keeps_getKey _
  | with_reducible exact keeps_getPeerId _
  | with_reducible exact keeps_mixHashAt _ _
  | with_reducible exact keeps_mixDhAt _ _ _ _
  | with_reducible exact keeps_encryptAndHashAt _ _ _ _ _ _
  | with_reducible exact keeps_decryptAndHashAt _ _ _ _ _
  | with_reducible exact keeps_splitAt _ _
  | with_reducible refine Keeps.bind ?_ fun _ => ?_
  | with_reducible refine Keeps.ite ?_ ?_
  | split)

theorem keeps_newState (dv : DeviceRec) (a b : ℕ) (e : B32) (r : Option ℕ) : Keeps (newState dv a b e r) := by
  unfold newState; keeps3
theorem keeps_createInit (dvp : ℕ) (pid : UInt32) (e : B32) : Keeps (createInit dvp pid e) := by
  have := keeps_newState
  unfold createInit
  keeps3
  all_goals first | with_reducible exact this _ _ _ _ _ | skip
theorem keeps_createResp (dvp : ℕ) (e : B32) : Keeps (createResp dvp e) := by
  have := keeps_newState
  unfold createResp
  keeps3
  all_goals first | with_reducible exact this _ _ _ _ _ | skip
theorem keeps_initWrite0At (p : HsPtr) (a b c d : ℕ) : Keeps (initWrite0At p a b c d) := by unfold initWrite0At; keeps3
theorem keeps_initWrite2At (p : HsPtr) (a b c d : ℕ) : Keeps (initWrite2At p a b c d) := by unfold initWrite2At; keeps3
theorem keeps_respWrite1At (p : HsPtr) (a b c d : ℕ) : Keeps (respWrite1At p a b c d) := by unfold respWrite1At; keeps3
theorem keeps_initRead1At (p : HsPtr) (a b : ℕ) (i : Bytes) : Keeps (initRead1At p a b i) := by unfold initRead1At; keeps3
theorem keeps_respRead0At (p : HsPtr) (a b : ℕ) (i : Bytes) : Keeps (respRead0At p a b i) := by unfold respRead0At; keeps3
theorem keeps_respRead2At (sn : SessionRec) (dv : DeviceRec) (p : HsPtr) (a b c : ℕ) (i : Bytes) :
    Keeps (respRead2At sn dv p a b c i) := by unfold respRead2At; keeps3

theorem keeps_stateHandshakeWrite (a b c d e : ℕ) : Keeps (stateHandshakeWrite a b c d e) := by
  unfold stateHandshakeWrite
  keeps3
  all_goals first
    | with_reducible exact keeps_initWrite0At _ _ _ _ _
    | with_reducible exact keeps_initWrite2At _ _ _ _ _
    | with_reducible exact keeps_respWrite1At _ _ _ _ _
    | skip

theorem keeps_stateHandshakeRead (a b c : ℕ) (i : Bytes) : Keeps (stateHandshakeRead a b c i) := by
  unfold stateHandshakeRead
  keeps3
  all_goals first
    | with_reducible exact keeps_initRead1At _ _ _ _
    | with_reducible exact keeps_respRead0At _ _ _ _
    | with_reducible exact keeps_respRead2At _ _ _ _ _ _ _
    | skip

theorem keeps_stateTransportWrite (a b c d e : ℕ) : Keeps (stateTransportWrite a b c d e) := by
  unfold stateTransportWrite; keeps3
theorem keeps_stateTransportRead (a b c : ℕ) (i : Bytes) : Keeps (stateTransportRead a b i c) := by
  unfold stateTransportRead; keeps3

theorem keeps_sessionWriteAt (a b : ℕ) : Keeps (sessionWriteAt a b) := by
  unfold sessionWriteAt
  keeps3
  all_goals first
    | with_reducible exact keeps_stateHandshakeWrite _ _ _ _ _
    | with_reducible exact keeps_stateTransportWrite _ _ _ _ _
    | skip

theorem keeps_sessionReadAt (a : ℕ) (i : Bytes) : Keeps (sessionReadAt a i) := by
  unfold sessionReadAt
  keeps3
  all_goals first
    | with_reducible exact keeps_stateHandshakeRead _ _ _ _
    | with_reducible exact keeps_stateTransportRead _ _ _ _
    | skip

macro "keeps4" : tactic => `(tactic| repeat' first
  | with_reducible assumption
  | with_reducible exact Keeps.pure _
  | with_reducible exact Keeps.ub _
  | with_reducible exact Keeps.free _
  | with_reducible exact keeps_loadN _ _
  | with_reducible exact keeps_freeSome _
  | with_reducible exact keeps_storedStr _
  | with_reducible exact keeps_lookupById _ _
  | with_reducible exact keeps_addPeer _ _ _
  | with_reducible exact keeps_peerGetId _
  | with_reducible exact keeps_peerGetInfo _
  | with_reducible exact keeps_packMsg _ _
  | with_reducible exact keeps_encapFree _
  | with_reducible exact keeps_unpackMsg _ _
  | with_reducible exact keeps_sessionFree _
  | with_reducible exact keeps_getKey _
  | with_reducible exact keeps_getPeerId _
  | with_reducible exact keeps_createInit _ _ _
  | with_reducible exact keeps_createResp _ _
  | with_reducible exact keeps_sessionWriteAt _ _
  | with_reducible exact keeps_sessionReadAt _ _
  | with_reducible refine Keeps.bind ?_ fun _ => ?_
  | with_reducible refine Keeps.ite ?_ ?_
  | split)

theorem keeps_initNoiseAt (a b : ℕ) (n : Bytes) (c d : B32) : Keeps (initNoiseAt a b n c d) := by unfold initNoiseAt; keeps4
theorem keeps_respondNoiseAt (a : ℕ) (n : Bytes) (d : B32) : Keeps (respondNoiseAt a n d) := by unfold respondNoiseAt; keeps4
theorem keeps_finishReadAt (a : ℕ) (n : Bytes) : Keeps (finishReadAt a n) := by unfold finishReadAt; keeps4
theorem keeps_finishNoiseAt (l : Bool) (a b : ℕ) (n : Bytes) : Keeps (finishNoiseAt l a b n) := by
  have := keeps_finishReadAt
  unfold finishNoiseAt
  keeps4
  all_goals first | with_reducible exact this _ _ | skip
theorem keeps_encryptNoiseAt (a b : ℕ) (n : Bytes) : Keeps (encryptNoiseAt a n b) := by unfold encryptNoiseAt; keeps4
theorem keeps_decryptNoiseAt (a b : ℕ) (n : Bytes) : Keeps (decryptNoiseAt a n b) := by unfold decryptNoiseAt; keeps4
theorem keeps_keyNoiseAt (a : ℕ) : Keeps (keyNoiseAt a) := by unfold keyNoiseAt; keeps4
theorem keeps_freeSlotAt (a : ℕ) : Keeps (freeSlotAt a) := by unfold freeSlotAt; keeps4

end

end Verif.Noise.Mem
