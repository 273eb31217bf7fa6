import Verif.Proofs.PeerFrame

/-!
# Errors of the steps of a peer

Every step that is left by a `return` of an error returns another value than 0.
-/

set_option linter.unusedSectionVars false

namespace Verif.TpDkg.Peer

open H Wire

/-- Left early, `m` returns another value than 0; otherwise the result satisfies `V`. -/
def Err {α : Type} (V : α → Prop) (m : H PRun α) : Prop := ∀ s, Wp m True (fun e _ => e ≠ 0) (fun a _ => V a) s

section

variable {α β : Type} {V : α → Prop}

theorem err_pure {a : α} (h : V a) : Err V (pure a : H PRun α) := fun _ => h
theorem err_ret {e : Int} (h : e ≠ 0) : Err V (ret e : H PRun α) := fun _ => h
theorem err_get : Err (fun _ => True) (get : H PRun PRun) := fun _ => trivial
theorem err_lift {x : C α} : Err (fun _ => True) (lift x : H PRun α) := fun _ => wp_lift_of trivial fun _ _ => trivial
theorem err_ub {u : UB} : Err V (lift (.ub u) : H PRun α) := fun _ => trivial
theorem err_modify {f : PRun → PRun} : Err (fun _ => True) (modify f) := fun _ => trivial
theorem err_setCtx {f : PeerState → PeerState} : Err (fun _ => True) (setCtx f) := fun _ => trivial

theorem err_bind {V' : β → Prop} {m : H PRun α} {f : α → H PRun β} (hm : Err V m) (hf : ∀ a, V a → Err V' (f a)) :
    Err V' (m >>= f) := fun s => by
  rw [wp_bind]
  exact (hm s).mono id (fun _ _ h => h) fun a s' h => hf a h s'

theorem err_ite {p : Prop} [Decidable p] {m m' : H PRun α} (h : p → Err V m) (h' : ¬ p → Err V m') :
    Err V (if p then m else m') := by
  split
  · exact h ‹_›
  · exact h' ‹_›

theorem err_loop {body : ℕ → H PRun Unit} (hb : ∀ i, Err (fun _ => True) (body i)) :
    ∀ m i, Err (fun _ => True) (loop body m i)
  | 0, _ => err_pure trivial
  | m + 1, i => err_bind (hb i) fun _ _ => err_loop hb m (i + 1)

theorem err_forN {n : ℕ} {body : ℕ → H PRun Unit} (hb : ∀ i, Err (fun _ => True) (body i)) :
    Err (fun _ => True) (forN n body) := err_loop hb n 0

end

variable [Signing]

theorem err_recvTp (clock : ℕ → UInt64) (input : Bytes) (msgno rcp : UInt8) :
    Err (fun r => 0 ≤ r ∧ r ≤ 7) (recvTp clock input msgno rcp) := fun s => by
  unfold recvTp
  rw [wp_bind, wp_get, wp_bind]
  refine wp_lift_of trivial fun x hx => ?_
  exact recvMsg_range hx

theorem err_recv (clock : ℕ → UInt64) (input : Bytes) (off len : ℕ) (msgno rcp : UInt8) (pk : B32) (i : ℕ) :
    Err (fun r => 0 ≤ r ∧ r ≤ 7) (recv clock input off len msgno rcp pk i) := fun s => by
  unfold recv
  rw [wp_bind, wp_get, wp_bind]
  refine wp_lift_of trivial fun last hl => ?_
  rw [wp_bind]
  refine wp_lift_of trivial fun x hx => ?_
  rw [wp_bind]
  exact wp_lift_of trivial fun _ _ => recvMsg_range hx

/-- Applies the rules for `Err` as far as possible. -/
macro "err" "[" ts:term,* "]" : tactic => do
  let alts ← ts.getElems.mapM fun t => `(tactic| exact $t)
  `(tactic| repeat' first
  | (first $[| $alts:tactic]*)
  | with_reducible exact err_ret (by omega)
  | with_reducible exact err_recvTp _ _ _ _
  | with_reducible exact err_recv _ _ _ _ _ _ _ _
  | with_reducible exact err_get
  | with_reducible exact err_pure (V := fun _ => True) trivial
  | with_reducible exact err_ub
  | with_reducible exact err_lift
  | with_reducible exact err_setCtx
  | with_reducible exact err_modify
  | with_reducible refine err_ite (fun hc => ?_) fun hc => ?_
  | with_reducible refine err_forN fun i => ?_
  | with_reducible apply err_bind
  | intro a ha
  | split)

theorem err_send (clock : ℕ → UInt64) (off len : ℕ) (msgno rcp : UInt8) :
    Err (fun _ => True) (send clock off len msgno rcp) := by
  unfold send
  err []

theorem err_dump (log : Bool) (buf : Bytes) (off len : ℕ) : Err (fun _ => True) (dump log buf off len) := by
  unfold dump
  err []

theorem err_dumpOut (log : Bool) (off len : ℕ) : Err (fun _ => True) (dumpOut log off len) := by
  unfold dumpOut
  err [err_dump _ _ _ _]

theorem err_setOut (off : ℕ) (b : Bytes) : Err (fun _ => True) (setOut off b) := by
  unfold setOut
  err []

theorem err_copy (off : ℕ) (m : Option Bytes) : Err (fun _ => True) (copy off m) := by
  unfold copy
  err [err_setOut _ _]

theorem err_sigPkOf (i : ℕ) : Err (fun _ => True) (sigPkOf i) := by
  unfold sigPkOf
  err []

theorem err_getDev : Err (fun _ => True) getDev := by
  unfold getDev
  err []

theorem err_setOuts (i : ℕ) (p : Ptr Noise.Session) : Err (fun _ => True) (setOuts i p) := by
  unfold setOuts
  err []

theorem err_setIns (i : ℕ) (p : Ptr Noise.Session) : Err (fun _ => True) (setIns i p) := by
  unfold setIns
  err []

theorem err_setKeys (i : ℕ) (pk npk : B32) : Err (fun _ => True) (setKeys i pk npk) := by
  unfold setKeys
  err []

variable [Hashes] [NoiseCrypto] {clock : ℕ → UInt64} {log mlock : Bool} {rnd : Rnd} {input : Bytes} {scratch : B32}

theorem err_step5Body (i : ℕ) : Err (fun _ => True) (step5Body clock log rnd input i) := by
  unfold step5Body initSession
  err [err_dump _ _ _ _, err_setKeys _ _ _, err_getDev, err_setOuts _ _, err_copy _ _, err_send _ _ _ _ _,
    err_dumpOut _ _ _]

variable [Mac] (G : Type) [Ristretto G]

theorem err_setCommitments (off : ℕ) (d : List B32) : Err (fun _ => True) (setCommitments off d) := by
  unfold setCommitments
  err []

theorem err_encrypt (p : Bytes) (off l i : ℕ) (code : Int) (h : code ≠ 0) :
    Err (fun _ => True) (encrypt p off l i code) := by
  unfold encrypt
  err [err_setOuts _ _, err_copy _ _, err_ret h]

theorem err_commitKey (off i : ℕ) : Err (fun _ => True) (commitKey off i) := by
  unfold commitKey
  err [err_setOut _ _]

theorem err_step13Body (t : UInt8) (i : ℕ) : Err (fun _ => True) (step13Body clock log input t i) := by
  unfold step13Body
  err [err_dump _ _ _ _, err_sigPkOf _, err_setCommitments _ _, err_encrypt _ _ _ _ _ (by decide), err_commitKey _ _,
    err_send _ _ _ _ _, err_dumpOut _ _ _]

theorem err_addComplaint (p : UInt16) : Err (fun _ => True) (addComplaint p) := by
  unfold addComplaint
  err []

theorem err_addMine (p : UInt8) : Err (fun _ => True) (addMine p) := by
  unfold addMine
  err []

theorem err_step17Body (n : UInt8) (i : ℕ) : Err (fun _ => True) (step17Body clock log input n i) := by
  unfold step17Body step17Inner
  err [err_dump _ _ _ _, err_sigPkOf _, err_addComplaint _, err_addMine _]

end Verif.TpDkg.Peer
