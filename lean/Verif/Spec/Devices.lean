import Verif.Spec.SessionMem

/-!
# Programs that use several devices

Devices with their sessions as plain values, any number of them, and programs that create, use and release them in any order. A
program may make each call depend on the answers so far.
-/

namespace Verif.Spec.Devices

open Noise Noise.Mem Spec.Device
open Spec.SessionMem (World)

inductive Op
  /-- a new device; it gets the next number -/
  | new (prologue : Bytes) (name : Option Bytes) (sk spriv : B32)
  /-- operation on a device or one of its sessions -/
  | on (k : ℕ) (o : SessionMem.Op)
  /-- release of a device whose sessions are all closed -/
  | drop (k : ℕ)

inductive Out
  | made
  | answer (o : SessionMem.Out)
  | dropped
  /-- there is no such device, or it has open sessions -/
  | none
  deriving DecidableEq

/-- The devices by number, `none` for those that were released; `gone` are the latter as they were at that time. -/
structure State where
  ws : List (Option World)
  gone : List Dev

def State.init : State := ⟨[], []⟩

def State.get (s : State) (k : ℕ) : Option World := s.ws[k]?.join

/-- A program that ends with a value or makes a call and goes on with the answer. -/
inductive Prog (α : Type)
  | done (a : α)
  | call (o : Op) (next : Out → Prog α)

def Prog.map {α β : Type} (f : α → β) : Prog α → Prog β
  | .done a => .done (f a)
  | .call o next => .call o fun r => (next r).map f

/-- The program that makes the calls of a list and collects the answers. -/
def callsOf : List Op → Prog (List Out)
  | [] => .done []
  | o :: os => .call o fun r => (callsOf os).map (r :: ·)

/-- The operations on the device with a number. -/
def opsOn (k : ℕ) : List Op → List SessionMem.Op
  | [] => []
  | .on j o :: os => if j = k then o :: opsOn k os else opsOn k os
  | _ :: os => opsOn k os

/-- The answers to the operations on the device with a number. -/
def answersOn (k : ℕ) : List Op → List Out → List Out
  | .on j _ :: os, r :: rs => if j = k then r :: answersOn k os rs else answersOn k os rs
  | _ :: os, _ :: rs => answersOn k os rs
  | _, _ => []

/-- How many devices a list of calls creates. -/
def created : List Op → ℕ
  | [] => 0
  | .new .. :: os => created os + 1
  | _ :: os => created os

/-- The bytes of an answer. -/
def Out.msg : Out → Bytes
  | .answer (.sent _ (some m)) => m
  | .answer (.received _ (some m)) => m
  | _ => []

section
variable [Hashes] [NoiseCrypto]

/-- Two devices on one heap know each other, run the handshake, exchange two messages and are released. The result is what the
second and the first device received at the end. -/
def talk (prologue : Bytes) (na nb : Option Bytes) (ska skb a b ea eb : B32) (text reply : Bytes) : Prog (Out × Out) :=
  .call (.new prologue na ska a) fun _ =>
  .call (.new prologue nb skb b) fun _ =>
  .call (.on 0 (.dev (.add nb (NoiseCrypto.xbase b)))) fun _ =>
  .call (.on 1 (.dev (.add na (NoiseCrypto.xbase a)))) fun _ =>
  .call (.on 0 (.openTo 1 ea)) fun _ =>
  .call (.on 1 (.accept eb)) fun _ =>
  .call (.on 0 (.send 0 0 [])) fun c =>
  .call (.on 1 (.recv 0 0 c.msg)) fun _ =>
  .call (.on 1 (.send 0 0 [])) fun c =>
  .call (.on 0 (.recv 0 0 c.msg)) fun _ =>
  .call (.on 0 (.send 0 5 text)) fun c =>
  .call (.on 1 (.recv 0 2 c.msg)) fun x =>
  .call (.on 1 (.send 0 5 reply)) fun c =>
  .call (.on 0 (.recv 0 2 c.msg)) fun y =>
  .call (.on 0 (.close 0)) fun _ =>
  .call (.on 1 (.close 0)) fun _ =>
  .call (.drop 0) fun _ =>
  .call (.drop 1) fun _ =>
  .done (x, y)

def State.step (s : State) : Op → Out × State
  | .new prologue name sk spriv => (.made, { s with ws := s.ws ++ [some (World.new prologue name sk spriv)] })
  | .on k o =>
    match s.get k with
    | .none => (.none, s)
    | some w => (.answer (w.step o).1, { s with ws := s.ws.set k (some (w.step o).2) })
  | .drop k =>
    match s.get k with
    | .none => (.none, s)
    | some w => if w.sns.all Option.isNone then (.dropped, ⟨s.ws.set k .none, w.d :: s.gone⟩) else (.none, s)

def Prog.run {α : Type} : Prog α → State → α × State
  | .done a, s => (a, s)
  | .call o next, s => (next (s.step o).1).run (s.step o).2

/-- A list of calls, and all answers. -/
def State.run (s : State) : List Op → List Out × State
  | [] => ([], s)
  | o :: os =>
    let r := s.step o
    let rs := r.2.run os
    (r.1 :: rs.1, rs.2)

/-! ### The same program on the heap -/

/-- The pointers that a program holds: to each device, 0 after its release, and to the sessions of the device. -/
abbrev Held := List (ℕ × List ℕ)

def stepAt (qs : Held) : Op → M (Out × Held)
  | .new prologue name sk spriv => do
    let p ← create prologue name sk spriv
    pure (.made, qs ++ [(p, [])])
  | .on k o =>
    if (qs.getD k (0, [])).1 = 0 then pure (.none, qs)
    else do
      let r ← SessionMem.stepAt (qs.getD k (0, [])).1 (qs.getD k (0, [])).2 o
      pure (.answer r.1, qs.set k ((qs.getD k (0, [])).1, r.2))
  | .drop k =>
    if (qs.getD k (0, [])).1 = 0 ∨ ¬ (qs.getD k (0, [])).2.all (· == 0) then pure (.none, qs)
    else do
      deviceFree (qs.getD k (0, [])).1
      pure (.dropped, qs.set k (0, []))

def Prog.runAt {α : Type} : Prog α → Held → M (α × Held)
  | .done a, qs => pure (a, qs)
  | .call o next, qs => do
    let r ← stepAt qs o
    (next r.1).runAt r.2

end

end Verif.Spec.Devices
