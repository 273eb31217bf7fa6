import Verif.Spec.Device
import Mathlib.Data.Multiset.MapFold
import Mathlib.Data.Multiset.UnionInter
import Mathlib.Algebra.Order.Group.Multiset
import Mathlib.Data.List.TakeWhile
import Mathlib.Tactic.Abel

/-!
# Heap reasoning for the devices

`Sep h0 h L`: compared with the heap `h0` at the beginning, the heap `h` has exactly the additional blocks `L`.
-/

set_option linter.unusedSectionVars false

namespace Verif.Noise.Mem

open Spec.Device NoiseCrypto

theorem run_bind {α β : Type} (m : M α) (f : α → M β) (h : Heap) :
    (m >>= f) h = (m h >>= fun p => f p.1 p.2) := rfl

theorem run_pure {α : Type} (a : α) (h : Heap) : (pure a : M α) h = .ok (a, h) := rfl

abbrev Blocks := Multiset (ℕ × Block)

structure Sep (h0 h : Heap) (L : Blocks) : Prop where
  ok0 : HeapOk h0
  le : h0.next ≤ h.next
  nodup : (L.map Prod.fst).Nodup
  at_ : ∀ p ∈ L, h0.next ≤ p.1 ∧ p.1 < h.next ∧ h.mem p.1 = some p.2
  frame : ∀ a, a ∉ L.map Prod.fst → h.mem a = h0.mem a

theorem Sep.init {h : Heap} (hk : HeapOk h) : Sep h h 0 :=
  ⟨hk, le_refl _, by simp, by simp, fun _ _ => rfl⟩

theorem Sep.ne {h0 h : Heap} {L : Blocks} (s : Sep h0 h L) {a : ℕ} {b : Block} (hm : (a, b) ∈ L) : a ≠ 0 := by
  have h1 := (s.at_ _ hm).1
  have h2 := s.ok0.1
  simp only at h1
  omega

theorem Sep.alloc {h0 h : Heap} {L : Blocks} (s : Sep h0 h L) (b : Block) :
    ∃ h', alloc b h = .ok (h.next, h') ∧ Sep h0 h' ({(h.next, b)} + L) ∧ h'.released = h.released := by
  refine ⟨_, rfl, ⟨s.ok0, by have := s.le; simp only; omega, ?_, ?_, ?_⟩, rfl⟩
  · simp only [Multiset.map_add, Multiset.map_singleton, Multiset.singleton_add, Multiset.map_cons, Multiset.nodup_cons, s.nodup, and_true]
    intro hm
    obtain ⟨p, hp, he⟩ := Multiset.mem_map.mp hm
    have := (s.at_ p hp).2.1
    omega
  · intro p hp
    rcases Multiset.mem_add.mp hp with hp | hp
    · rw [Multiset.mem_singleton] at hp
      subst hp
      exact ⟨s.le, Nat.lt_succ_self _, by simp⟩
    · obtain ⟨h1, h2, h3⟩ := s.at_ p hp
      refine ⟨h1, Nat.lt_succ_of_lt h2, ?_⟩
      rw [← h3]
      exact Function.update_of_ne (by omega) _ _
  · intro a ha
    simp only [Multiset.map_add, Multiset.map_singleton, Multiset.singleton_add, Multiset.map_cons, Multiset.mem_cons, not_or] at ha
    rw [← s.frame a ha.2]
    exact Function.update_of_ne ha.1 _ _

theorem Sep.load {h0 h : Heap} {L : Blocks} (s : Sep h0 h L) {a : ℕ} {b : Block} (hm : (a, b) ∈ L) :
    load a h = .ok (b, h) := by
  have := (s.at_ _ hm).2.2
  simp only at this
  unfold Mem.load
  rw [if_neg (s.ne hm), this]

theorem Sep.loadCell {h0 h : Heap} {L : Blocks} (s : Sep h0 h L) {a n d : ℕ} (hm : (a, Block.cell n d) ∈ L) :
    loadCell a h = .ok ((n, d), h) := by
  unfold Mem.loadCell; rw [run_bind, s.load hm]; rfl

theorem Sep.loadPeer {h0 h : Heap} {L : Blocks} (s : Sep h0 h L) {a p k : ℕ} {i : UInt32}
    (hm : (a, Block.peer i p k) ∈ L) : loadPeer a h = .ok ((i, p, k), h) := by
  unfold Mem.loadPeer; rw [run_bind, s.load hm]; rfl

theorem Sep.loadStr {h0 h : Heap} {L : Blocks} (s : Sep h0 h L) {a p : ℕ} (hm : (a, Block.str p) ∈ L) :
    loadStr a h = .ok (p, h) := by
  unfold Mem.loadStr; rw [run_bind, s.load hm]; rfl

theorem Sep.loadBytes {h0 h : Heap} {L : Blocks} (s : Sep h0 h L) {a : ℕ} {b : Bytes} (hm : (a, Block.bytes b) ∈ L) :
    loadBytes a h = .ok (b, h) := by
  unfold Mem.loadBytes; rw [run_bind, s.load hm]; rfl

theorem Sep.loadHead {h0 h : Heap} {L : Blocks} (s : Sep h0 h L) {a p : ℕ} (hm : (a, Block.head p) ∈ L) :
    loadHead a h = .ok (p, h) := by
  unfold Mem.loadHead; rw [run_bind, s.load hm]; rfl

theorem Sep.loadDevice {h0 h : Heap} {L : Blocks} (s : Sep h0 h L) {a : ℕ} {d : DeviceRec}
    (hm : (a, Block.device d) ∈ L) : loadDevice a h = .ok (d, h) := by
  unfold Mem.loadDevice; rw [run_bind, s.load hm]; rfl

theorem Sep.loadN {h0 h : Heap} {L : Blocks} (s : Sep h0 h L) {a : ℕ} {v : B32}
    (hm : (a, Block.bytes v.toList) ∈ L) : loadN a 32 h = .ok (v.toList, h) := by
  unfold Mem.loadN
  rw [run_bind, s.loadBytes hm]
  simp [run_pure]

theorem Sep.store {h0 h : Heap} {L : Blocks} {a : ℕ} {b : Block} (s : Sep h0 h ({(a, b)} + L)) (b' : Block) :
    ∃ h', store a b' h = .ok ((), h') ∧ Sep h0 h' ({(a, b')} + L) ∧ h'.released = h.released := by
  have hm : (a, b) ∈ ({(a, b)} + L : Blocks) := by simp
  have hl := (s.at_ _ hm).2.2
  simp only at hl
  have hnd := s.nodup
  simp only [Multiset.map_add, Multiset.map_singleton, Multiset.singleton_add, Multiset.map_cons, Multiset.nodup_cons] at hnd
  refine ⟨{ h with mem := Function.update h.mem a (some b') }, ?_, ⟨s.ok0, s.le, ?_, ?_, ?_⟩, rfl⟩
  · unfold Mem.store
    rw [if_neg (s.ne hm), hl]
  · simpa using hnd
  · intro p hp
    rcases Multiset.mem_add.mp hp with hp' | hp'
    · rw [Multiset.mem_singleton] at hp'
      subst hp'
      exact ⟨(s.at_ _ hm).1, (s.at_ _ hm).2.1, by simp⟩
    · obtain ⟨h1, h2, h3⟩ := s.at_ p (by simp [hp'])
      refine ⟨h1, h2, ?_⟩
      rw [← h3]
      refine Function.update_of_ne ?_ _ _
      rintro rfl
      exact hnd.1 (Multiset.mem_map_of_mem _ hp')
  · intro x hx
    rw [← s.frame x (by simpa using hx)]
    refine Function.update_of_ne ?_ _ _
    rintro rfl
    simp at hx

theorem Sep.free {h0 h : Heap} {L : Blocks} {a : ℕ} {b : Block} (s : Sep h0 h ({(a, b)} + L)) :
    ∃ h', free a h = .ok ((), h') ∧ Sep h0 h' L ∧ h'.released = b :: h.released := by
  have hm : (a, b) ∈ ({(a, b)} + L : Blocks) := by simp
  have hl := (s.at_ _ hm).2.2
  have hr := (s.at_ _ hm).1
  simp only at hl hr
  have hnd := s.nodup
  simp only [Multiset.map_add, Multiset.map_singleton, Multiset.singleton_add, Multiset.map_cons, Multiset.nodup_cons] at hnd
  refine ⟨{ h with mem := Function.update h.mem a none, released := b :: h.released }, ?_, ⟨s.ok0, s.le, ?_, ?_, ?_⟩, rfl⟩
  · unfold Mem.free
    rw [if_neg (s.ne hm), hl]
  · exact hnd.2
  · intro p hp
    obtain ⟨h1, h2, h3⟩ := s.at_ p (by simp [hp])
    refine ⟨h1, h2, ?_⟩
    rw [← h3]
    refine Function.update_of_ne ?_ _ _
    rintro rfl
    exact hnd.1 (Multiset.mem_map_of_mem _ hp)
  · intro x hx
    by_cases hxa : x = a
    · subst hxa
      simp only [Function.update_self]
      exact (s.ok0.2 x hr).symm
    · rw [← s.frame x (by simp only [Multiset.map_add, Multiset.map_singleton, Multiset.singleton_add, Multiset.map_cons,
        Multiset.mem_cons, not_or]; exact ⟨hxa, hx⟩)]
      exact Function.update_of_ne hxa _ _

/-! ### Strings -/

/-- Block of a stored string, none for the empty one. -/
def strBlock (p : ℕ) (s : Bytes) : Blocks := if s = [] then 0 else {(p, .bytes (s ++ [0]))}

/-- The pointer of a stored string and the string. -/
def StrOk (p : ℕ) (s : Bytes) : Prop := (s = [] → p = 0) ∧ 0 ∉ s

theorem argStr_text (s : Option Bytes) : argStr s = text s := by
  cases s <;> simp [argStr, text, cstr]

theorem zero_notMem_text (s : Option Bytes) : 0 ∉ text s := by
  intro h
  have := List.mem_takeWhile_imp h
  simp at this

theorem cstr_term {s : Bytes} (h : 0 ∉ s) : cstr (s ++ [0]) = s := by
  unfold cstr
  rw [List.takeWhile_append_of_pos]
  · simp
  · intro a ha
    have : a ≠ 0 := by rintro rfl; exact h ha
    simpa using this

theorem Sep.copyStr {h0 h : Heap} {L : Blocks} (s : Sep h0 h L) {t : Bytes} (ht : 0 ∉ t) :
    ∃ p h', copyStr t h = .ok (p, h') ∧ Sep h0 h' (strBlock p t + L) ∧ StrOk p t ∧ (t ≠ [] → p ≠ 0) ∧
      h'.released = h.released := by
  by_cases he : t = []
  · refine ⟨0, h, by simp [Mem.copyStr, he, run_pure], by simpa [strBlock, he] using s, ⟨fun _ => rfl, ht⟩,
      fun hne => absurd he hne, rfl⟩
  · obtain ⟨h', e, s', hr⟩ := s.alloc (.bytes (t ++ [0]))
    refine ⟨h.next, h', by simp [Mem.copyStr, he, e], by simpa [strBlock, he] using s', ⟨fun h => absurd h he, ht⟩,
      fun _ => s'.ne (b := .bytes (t ++ [0])) (by simp), hr⟩

theorem Sep.storedStr {h0 h : Heap} {L : Blocks} (s : Sep h0 h L) {p : ℕ} {t : Bytes} (ho : StrOk p t)
    (hs : strBlock p t ≤ L) : storedStr p h = .ok (t, h) := by
  unfold Mem.storedStr
  by_cases he : t = []
  · rw [if_pos (ho.1 he), he]; rfl
  · have hm : (p, Block.bytes (t ++ [0])) ∈ L := by
      apply Multiset.mem_of_le hs
      simp [strBlock, he]
    rw [if_neg (s.ne hm), run_bind, s.loadBytes hm]
    simp [cstr_term ho.2, run_pure]

/-- Freeing a stored string if there is one. -/
theorem Sep.freeStr {h0 h : Heap} {L : Blocks} {p : ℕ} {t : Bytes} (ho : StrOk p t)
    (s : Sep h0 h (strBlock p t + L)) :
    ∃ h', freeSome p h = .ok ((), h') ∧ Sep h0 h' L ∧
      ∃ x, h'.released = x ++ h.released := by
  by_cases he : t = []
  · refine ⟨h, by simp [freeSome, ho.1 he, run_pure], by simpa [strBlock, he] using s, [], rfl⟩
  · have s' : Sep h0 h ({(p, .bytes (t ++ [0]))} + L) := by simpa [strBlock, he] using s
    obtain ⟨h', e, s'', hr⟩ := s'.free
    exact ⟨h', by rw [freeSome, if_pos (s'.ne (b := .bytes (t ++ [0])) (by simp))]; exact e, s'', [_], hr⟩

/-- `free` of the copy returned by `peer_get_info`: NULL is fine. -/
theorem Sep.freeStr' {h0 h : Heap} {L : Blocks} {p : ℕ} {t : Bytes} (ho : StrOk p t)
    (s : Sep h0 h (strBlock p t + L)) : ∃ h', Mem.free p h = .ok ((), h') ∧ Sep h0 h' L := by
  by_cases he : t = []
  · refine ⟨h, by simp [Mem.free, ho.1 he], by simpa [strBlock, he] using s⟩
  · have s' : Sep h0 h ({(p, .bytes (t ++ [0]))} + L) := by simpa [strBlock, he] using s
    obtain ⟨h', e, s'', _⟩ := s'.free
    exact ⟨h', e, s''⟩

/-! ### Comparison of keys -/

theorem or_eq_zero (a b : UInt8) : a ||| b = 0 ↔ a = 0 ∧ b = 0 := by
  constructor
  · intro h
    have := congrArg UInt8.toBitVec h
    simp only [UInt8.toBitVec_or, UInt8.toBitVec_ofNat] at this
    rw [BitVec.or_eq_zero_iff] at this
    exact ⟨UInt8.toBitVec_inj.mp this.1, UInt8.toBitVec_inj.mp this.2⟩
  · rintro ⟨rfl, rfl⟩; rfl

theorem foldl_or_zero (l : Bytes) (acc : UInt8) :
    l.foldl (fun acc d => d ||| acc) acc = 0 ↔ acc = 0 ∧ ∀ x ∈ l, x = 0 := by
  induction l generalizing acc with
  | nil => simp
  | cons a l ih =>
    rw [List.foldl_cons, ih, or_eq_zero]
    simp only [List.mem_cons, forall_eq_or_imp]
    tauto

theorem lbytesEq_iff {a b : Bytes} (h : a.length = b.length) : lbytesEq a b = true ↔ a = b := by
  unfold lbytesEq
  rw [beq_iff_eq, foldl_or_zero]
  simp only [true_and]
  induction a generalizing b with
  | nil => cases b <;> simp_all
  | cons x xs ih =>
    cases b with
    | nil => simp at h
    | cons y ys =>
      simp only [List.zipWith_cons_cons, List.mem_cons, forall_eq_or_imp, List.cons.injEq]
      rw [ih (by simpa using h), UInt8.xor_eq_zero_iff]

theorem lbytesEq_vec (a b : B32) : lbytesEq a.toList b.toList = decide (a = b) := by
  rw [Bool.eq_iff_iff, lbytesEq_iff (by simp), decide_eq_true_iff]
  exact ⟨fun h => Vector.toList_inj.mp h, fun h => by rw [h]⟩

/-! ### Peers and peer lists -/

/-- Addresses and contents of a peer with its list cell. -/
structure Node where
  cell : ℕ
  peer : ℕ
  info : ℕ
  str : ℕ
  key : ℕ
  e : Entry

/-- The record, name and key of a peer. -/
def Node.body (n : Node) : Blocks :=
  {(n.peer, .peer n.e.id n.info n.key)} + {(n.info, .str n.str)} + {(n.key, .bytes n.e.key.toList)} +
    strBlock n.str n.e.name

def headOf : List Node → ℕ
  | [] => 0
  | n :: _ => n.cell

@[simp] theorem headOf_cons (n : Node) (ns : List Node) : headOf (n :: ns) = n.cell := rfl

def cells : List Node → Blocks
  | [] => 0
  | n :: ns => {(n.cell, .cell (headOf ns) n.peer)} + cells ns

def bodies : List Node → Blocks
  | [] => 0
  | n :: ns => n.body + bodies ns

def NodesOk (ns : List Node) : Prop := ∀ n ∈ ns, StrOk n.str n.e.name

theorem body_le {ns : List Node} {n : Node} (h : n ∈ ns) : n.body ≤ bodies ns := by
  induction ns with
  | nil => cases h
  | cons m ms ih =>
    rcases List.mem_cons.mp h with rfl | h
    · exact Multiset.le_add_right _ _
    · exact le_trans (ih h) (Multiset.le_add_left _ _)

theorem mem_cells {pre post : List Node} {n : Node} :
    (n.cell, Block.cell (headOf post) n.peer) ∈ cells (pre ++ n :: post) := by
  induction pre with
  | nil => simp [cells]
  | cons m ms ih => simp only [List.cons_append, cells]; exact Multiset.mem_add.mpr (.inr ih)

theorem peer_mem_body (n : Node) : (n.peer, Block.peer n.e.id n.info n.key) ∈ n.body := by simp [Node.body]
theorem info_mem_body (n : Node) : (n.info, Block.str n.str) ∈ n.body := by simp [Node.body]
theorem key_mem_body (n : Node) : (n.key, Block.bytes n.e.key.toList) ∈ n.body := by simp [Node.body]
theorem str_le_body (n : Node) : strBlock n.str n.e.name ≤ n.body := Multiset.le_add_left _ _

theorem card_cells (ns : List Node) : Multiset.card (cells ns) = ns.length := by
  induction ns with
  | nil => rfl
  | cons n ns ih => simp [cells, ih, add_comm]

theorem Sep.card_lt {h0 h : Heap} {L : Blocks} (s : Sep h0 h L) : Multiset.card L < h.next + 1 := by
  have h1 : Multiset.card L = Multiset.card (L.map Prod.fst) := by simp
  have h2 : L.map Prod.fst ≤ Multiset.range h.next := by
    rw [Multiset.le_iff_subset s.nodup]
    intro a ha
    obtain ⟨p, hp, rfl⟩ := Multiset.mem_map.mp ha
    simpa using (s.at_ p hp).2.1
  have := Multiset.card_le_card h2
  rw [Multiset.card_range] at this
  omega

/-- The search loop returns the first cell whose peer passes the test. -/
theorem Sep.findLoop {h0 h : Heap} {L : Blocks} (s : Sep h0 h L) {test : UInt32 × ℕ × ℕ → M Bool}
    {p : Entry → Bool} :
    ∀ (fuel : ℕ) (ns : List Node), ns.length < fuel → (∀ n ∈ ns, test (n.e.id, n.info, n.key) h = .ok (p n.e, h)) →
      cells ns ≤ L → bodies ns ≤ L →
      findLoop test fuel (headOf ns) h = .ok (((ns.find? fun n => p n.e).map (·.cell)).getD 0, h) := by
  intro fuel
  induction fuel with
  | zero => intro ns hl; omega
  | succ f ih =>
    intro ns hl ht hc hb
    cases ns with
    | nil => simp [Mem.findLoop, headOf, run_pure]
    | cons n ns =>
      have hm : (n.cell, Block.cell (headOf ns) n.peer) ∈ L := Multiset.mem_of_le hc (by simp [cells])
      have hp : (n.peer, Block.peer n.e.id n.info n.key) ∈ L :=
        Multiset.mem_of_le hb (Multiset.mem_of_le (body_le (List.mem_cons_self ..)) (peer_mem_body n))
      unfold Mem.findLoop
      rw [if_neg (by exact s.ne hm)]
      simp only [headOf_cons, run_bind, s.loadCell hm, C.ok_bind, s.loadPeer hp, ht n (List.mem_cons_self ..)]
      by_cases hpn : p n.e = true
      · simp [hpn, run_pure]
      · simp only [Bool.not_eq_true] at hpn
        simp only [hpn, Bool.false_eq_true, if_false]
        rw [ih ns (by simp at hl; omega) (fun m hm => ht m (List.mem_cons_of_mem _ hm))
          (le_trans (Multiset.le_add_left _ _) hc) (le_trans (Multiset.le_add_left _ _) hb)]
        simp [hpn]

theorem Sep.find {h0 h : Heap} {L : Blocks} (s : Sep h0 h L) {test : UInt32 × ℕ × ℕ → M Bool} {p : Entry → Bool}
    (ns : List Node) (ht : ∀ n ∈ ns, test (n.e.id, n.info, n.key) h = .ok (p n.e, h))
    (hc : cells ns ≤ L) (hb : bodies ns ≤ L) :
    find test (headOf ns) h = .ok (((ns.find? fun n => p n.e).map (·.cell)).getD 0, h) := by
  apply s.findLoop _ ns _ ht hc hb
  have h1 := Multiset.card_le_card hc
  rw [card_cells] at h1
  have := s.card_lt
  omega

/-- Search and access to the peer of the cell: the pointer of the first peer that passes the test, or NULL. -/
theorem Sep.find_data {h0 h : Heap} {L : Blocks} (s : Sep h0 h L) {test : UInt32 × ℕ × ℕ → M Bool} {p : Entry → Bool}
    (ns : List Node) (ht : ∀ n ∈ ns, test (n.e.id, n.info, n.key) h = .ok (p n.e, h))
    (hc : cells ns ≤ L) (hb : bodies ns ≤ L) :
    (Mem.find test (headOf ns) >>= cellData) h = .ok (((ns.find? fun n => p n.e).map (·.peer)).getD 0, h) := by
  rw [run_bind, s.find ns ht hc hb, C.ok_bind]
  cases hf : ns.find? fun n => p n.e with
  | none => simp [cellData, run_pure]
  | some n =>
    have hn := List.mem_of_find?_eq_some hf
    obtain ⟨pre, post, rfl⟩ := List.append_of_mem hn
    have hm := Multiset.mem_of_le hc (mem_cells (pre := pre) (post := post) (n := n))
    simp only [Option.map_some, Option.getD_some, cellData]
    rw [if_neg (s.ne hm), run_bind, s.loadCell hm]
    rfl

theorem Sep.sameStatic {h0 h : Heap} {L : Blocks} (s : Sep h0 h L) (k : B32) (n : Node) (hb : n.body ≤ L) :
    sameStatic k.toList (n.e.id, n.info, n.key) h = .ok (decide (n.e.key = k), h) := by
  unfold Mem.sameStatic
  rw [run_bind, s.loadN (Multiset.mem_of_le hb (key_mem_body n)), C.ok_bind, run_pure, lbytesEq_vec]

/-! ### Devices -/

def prlgBlock (p : ℕ) (b : Bytes) : Blocks := if b = [] then 0 else {(p, .bytes b)}

/-- The blocks of a device without those of its peer list. -/
def devBlocks (dvp : ℕ) (r : DeviceRec) (istr : ℕ) (d : Dev) (prlg pub : Bytes) (hd : ℕ) : Blocks :=
  {(dvp, .device r)} + {(r.info, .str istr)} + strBlock istr d.name + {(r.sk, .bytes d.sk.toList)} +
    {(r.spriv, .bytes d.spriv.toList)} + {(r.spub, .bytes pub)} + prlgBlock r.prlg prlg + {(r.peers, .head hd)}

structure IdsOk (d : Dev) : Prop where
  pos : 0 < d.counter
  nodup : (d.peers.map (·.id)).Nodup
  lt : ∀ e ∈ d.peers, 0 < e.id ∧ e.id < d.counter

/-- The heap `h` contains, in addition to `h0`, the device `d` at `dvp` and the blocks `X`. -/
structure Rep (h0 h : Heap) (dvp : ℕ) (d : Dev) (X : Blocks) (r : DeviceRec) (istr : ℕ) (prlg pub : Bytes)
    (ns : List Node) : Prop where
  sep : Sep h0 h (devBlocks dvp r istr d prlg pub (headOf ns) + cells ns + bodies ns + X)
  name : StrOk istr d.name
  nodes : NodesOk ns
  peers : d.peers = ns.map (·.e)
  counter : r.peersCounter = d.counter
  len : r.prlgLen = prlg.length
  prlg : prlg = [] → r.prlg = 0
  ids : IdsOk d

/-- The same with the addresses hidden; `c` is the number of the next session. -/
def Represents (h0 h : Heap) (dvp : ℕ) (d : Dev) (X : Blocks) (prlg pub : Bytes) (c : UInt32) : Prop :=
  ∃ r istr ns, Rep h0 h dvp d X r istr prlg pub ns ∧ r.states = c

section
variable {h0 h : Heap} {dvp : ℕ} {d : Dev} {X : Blocks} {r : DeviceRec} {istr : ℕ} {prlg pub : Bytes} {ns : List Node}

theorem Rep.cells_le (s : Rep h0 h dvp d X r istr prlg pub ns) :
    cells ns ≤ devBlocks dvp r istr d prlg pub (headOf ns) + cells ns + bodies ns + X :=
  le_trans (Multiset.le_add_left _ _) (le_trans (Multiset.le_add_right _ _) (Multiset.le_add_right _ _))

theorem Rep.bodies_le (s : Rep h0 h dvp d X r istr prlg pub ns) :
    bodies ns ≤ devBlocks dvp r istr d prlg pub (headOf ns) + cells ns + bodies ns + X :=
  le_trans (Multiset.le_add_left _ _) (Multiset.le_add_right _ _)

theorem Rep.body_le (s : Rep h0 h dvp d X r istr prlg pub ns) {n : Node} (hn : n ∈ ns) :
    n.body ≤ devBlocks dvp r istr d prlg pub (headOf ns) + cells ns + bodies ns + X :=
  le_trans (Mem.body_le hn) s.bodies_le

theorem Rep.device (s : Rep h0 h dvp d X r istr prlg pub ns) : loadDevice dvp h = .ok (r, h) :=
  s.sep.loadDevice (by simp [devBlocks])

theorem Rep.head (s : Rep h0 h dvp d X r istr prlg pub ns) : loadHead r.peers h = .ok (headOf ns, h) :=
  s.sep.loadHead (by simp [devBlocks])

theorem Rep.sk (s : Rep h0 h dvp d X r istr prlg pub ns) : loadN r.sk 32 h = .ok (d.sk.toList, h) :=
  s.sep.loadN (by simp [devBlocks])

theorem Rep.spriv (s : Rep h0 h dvp d X r istr prlg pub ns) : loadN r.spriv 32 h = .ok (d.spriv.toList, h) :=
  s.sep.loadN (by simp [devBlocks])

theorem find_entry (p : Entry → Bool) (ns : List Node) :
    (ns.map (·.e)).find? p = (ns.find? fun n => p n.e).map (·.e) := by
  rw [List.find?_map]; rfl

/-- `lookup_peer_by_id` -/
theorem Rep.lookupById (s : Rep h0 h dvp d X r istr prlg pub ns) (id : UInt32) :
    lookupById dvp id h = .ok (((ns.find? fun n => n.e.id = id).map (·.peer)).getD 0, h) := by
  unfold Mem.lookupById
  rw [run_bind, s.device, C.ok_bind]
  by_cases hid : id = 0
  · subst hid
    have : (ns.find? fun n => n.e.id = 0) = none := by
      rw [List.find?_eq_none]
      intro n hn
      have := (s.ids.lt n.e (by rw [s.peers]; exact List.mem_map_of_mem hn)).1
      simp only [decide_eq_true_eq]
      intro h
      rw [h] at this
      exact absurd this (by decide)
    simp [this, run_pure]
  · simp only [hid, if_false]
    rw [run_bind, s.head, C.ok_bind]
    exact s.sep.find_data (p := fun e => decide (e.id = id)) ns
      (fun n _ => by simp only [run_pure, C.ok.injEq, Prod.mk.injEq, and_true]; exact Bool.beq_eq_decide_eq ..)
      s.cells_le s.bodies_le

/-- `lookup_peer_by_static` -/
theorem Rep.lookupByStatic (s : Rep h0 h dvp d X r istr prlg pub ns) (k : B32) :
    lookupByStatic dvp k h = .ok (((ns.find? fun n => n.e.key = k).map (·.peer)).getD 0, h) := by
  unfold Mem.lookupByStatic
  rw [run_bind, s.device, C.ok_bind, run_bind, s.head, C.ok_bind]
  exact s.sep.find_data (p := fun e => decide (e.key = k)) ns
    (fun n hn => s.sep.sameStatic k n (s.body_le hn)) s.cells_le s.bodies_le

/-- A peer read through its pointer. -/
theorem Rep.readPeer (s : Rep h0 h dvp d X r istr prlg pub ns) {n : Node} (hn : n ∈ ns) :
    ∃ h', readPeer n.peer h = .ok (some n.e, h') ∧ Rep h0 h' dvp d X r istr prlg pub ns := by
  have hb := s.body_le hn
  have hp := Multiset.mem_of_le hb (peer_mem_body n)
  obtain ⟨p, h1, e1, s1, o1, _, _⟩ := s.sep.copyStr (s.nodes n hn).2
  have hb1 : n.body ≤ strBlock p n.e.name + (devBlocks dvp r istr d prlg pub (headOf ns) + cells ns + bodies ns + X) :=
    le_trans hb (Multiset.le_add_left _ _)
  obtain ⟨h2, e2, s2⟩ := s1.freeStr' o1
  refine ⟨h2, ?_, ⟨s2, s.name, s.nodes, s.peers, s.counter, s.len, s.prlg, s.ids⟩⟩
  have g1 : peerGetId n.peer h = .ok (n.e.id, h) := by
    unfold peerGetId; rw [run_bind, s.sep.loadPeer hp]; rfl
  have g2 : peerGetInfo n.peer h = .ok (p, h1) := by
    unfold peerGetInfo
    rw [run_bind, s.sep.loadPeer hp, C.ok_bind, run_bind, s.sep.loadStr (Multiset.mem_of_le hb (info_mem_body n)),
      C.ok_bind, run_bind, s.sep.storedStr (s.nodes n hn) (le_trans (str_le_body n) hb)]
    exact e1
  have g3 : storedStr p h1 = .ok (n.e.name, h1) := s1.storedStr o1 (Multiset.le_add_right _ _)
  have g4 : peerGetStatic n.peer h2 = .ok (n.e.key.toList, h2) := by
    unfold peerGetStatic
    rw [run_bind, s2.loadPeer hp]
    exact s2.loadN (Multiset.mem_of_le hb (key_mem_body n))
  unfold Spec.Device.readPeer
  rw [if_neg (s.sep.ne hp)]
  simp only [run_bind, g1, C.ok_bind, g2, g3, e2, g4, run_pure, toB32_toList]

end

/-! ### Adding a peer -/

section
variable {h0 h : Heap} {dvp : ℕ} {d : Dev} {X : Blocks} {r : DeviceRec} {istr : ℕ} {prlg pub : Bytes} {ns : List Node}

theorem find_isSome_key (ns : List Node) (k : B32) :
    (((ns.find? fun n => n.e.key = k).map (·.peer)) = none) ↔ k ∉ (ns.map (·.e)).map (·.key) := by
  simp only [Option.map_eq_none_iff, List.find?_eq_none, decide_eq_true_eq, List.mem_map, List.map_map,
    Function.comp_apply, not_exists, not_and]

theorem counter_succ {c : UInt32} (h : c ≠ 4294967295) : (c + 1).toNat = c.toNat + 1 := by
  have h1 : c.toNat ≠ 4294967295 := by
    intro hc
    exact h (UInt32.toNat_inj.mp (by rw [hc]; rfl))
  have h2 := c.toNat_lt
  rw [UInt32.toNat_add]
  simp
  omega

theorem IdsOk.add (i : IdsOk d) (hc : d.counter ≠ 4294967295) (name : Bytes) (key : B32) :
    IdsOk { d with peers := ⟨d.counter, name, key⟩ :: d.peers, counter := d.counter + 1 } := by
  have hs := counter_succ hc
  refine ⟨?_, ?_, ?_⟩
  · show 0 < d.counter + 1
    rw [UInt32.lt_iff_toNat_lt, hs]
    exact Nat.succ_pos _
  · simp only [List.map_cons, List.nodup_cons]
    refine ⟨?_, i.nodup⟩
    intro hm
    obtain ⟨e, he, heq⟩ := List.mem_map.mp hm
    have := (i.lt e he).2
    rw [heq] at this
    exact UInt32.lt_irrefl _ this
  · intro e he
    show 0 < e.id ∧ e.id < d.counter + 1
    rcases List.mem_cons.mp he with rfl | he
    · refine ⟨i.pos, ?_⟩
      rw [UInt32.lt_iff_toNat_lt, hs]
      exact Nat.lt_succ_self _
    · obtain ⟨h1, h2⟩ := i.lt e he
      refine ⟨h1, ?_⟩
      rw [UInt32.lt_iff_toNat_lt] at h2 ⊢
      omega

/-- `add_peer` -/
theorem Rep.addPeer (s : Rep h0 h dvp d X r istr prlg pub ns) (name : Option Bytes) (key : B32) :
    ∃ pp h' i, addPeer dvp name key h = .ok (pp, h') ∧ (d.add name key).1 = .added i ∧
      readId pp h' = .ok (i, h') ∧ Represents h0 h' dvp (d.add name key).2 X prlg pub r.states := by
  have hl := s.sep.find_data (p := fun e => decide (e.key = key)) ns
    (fun n hn => s.sep.sameStatic key n (s.body_le hn)) s.cells_le s.bodies_le
  rw [run_bind] at hl
  obtain ⟨q, hq, hq'⟩ := C.bind_eq_ok.mp hl
  by_cases hf : d.counter = 4294967295 ∨ key ∈ d.peers.map (·.key)
  · refine ⟨0, h, none, ?_, by rw [Dev.add, if_pos hf], by simp [readId, run_pure], ?_⟩
    · have : r.peersCounter = 4294967295 ∨ (((ns.find? fun n => n.e.key = key).map (·.peer)).getD 0) ≠ 0 := by
        rw [s.counter]
        rcases hf with hf | hf
        · exact .inl hf
        · right
          rw [s.peers] at hf
          have := mt (find_isSome_key ns key).mp (not_not_intro hf)
          obtain ⟨n, hn⟩ := Option.ne_none_iff_exists'.mp (fun h => this (by rw [h]; rfl) :
            (ns.find? fun n => n.e.key = key) ≠ none)
          rw [hn]
          exact s.sep.ne (Multiset.mem_of_le (s.body_le (List.mem_of_find?_eq_some hn)) (peer_mem_body n))
      unfold Mem.addPeer
      simp only [run_bind, s.device, C.ok_bind, s.head, hq]
      rw [hq']
      simp only [C.ok_bind]
      rw [if_pos this]
      rfl
    · rw [Dev.add, if_pos hf]
      exact ⟨r, istr, ns, s, rfl⟩
  · rw [not_or] at hf
    have hnone : (((ns.find? fun n => n.e.key = key).map (·.peer)).getD 0) = 0 := by
      have := hf.2
      rw [s.peers] at this
      rw [(find_isSome_key ns key).mpr this]; rfl
    have hng : ¬ (r.peersCounter = 4294967295 ∨ (((ns.find? fun n => n.e.key = key).map (·.peer)).getD 0) ≠ 0) := by
      rw [s.counter, hnone]
      simp [hf.1]
    obtain ⟨h1, e1, s1, _⟩ := s.sep.alloc (.bytes key.toList)
    obtain ⟨p, h2, e2, s2, o2, _, _⟩ := s1.copyStr (t := argStr name) (by rw [argStr_text]; exact zero_notMem_text _)
    obtain ⟨h3, e3, s3, _⟩ := s2.alloc (.str p)
    obtain ⟨h4, e4, s4, _⟩ := s3.alloc (.peer r.peersCounter h2.next h.next)
    have e5 : loadHead r.peers h4 = .ok (headOf ns, h4) := s4.loadHead (by simp [devBlocks])
    obtain ⟨h6, e6, s6, _⟩ := s4.alloc (.cell (headOf ns) h3.next)
    set n : Node := ⟨h4.next, h3.next, h2.next, p, h.next, ⟨d.counter, text name, key⟩⟩ with hn
    have s6' : Sep h0 h6 ({(r.peers, .head (headOf ns))} + ({(dvp, .device r)} + {(r.info, .str istr)} +
        strBlock istr d.name + {(r.sk, .bytes d.sk.toList)} + {(r.spriv, .bytes d.spriv.toList)} +
        {(r.spub, .bytes pub)} + prlgBlock r.prlg prlg + cells (n :: ns) + bodies (n :: ns) + X)) := by
      convert s6 using 1
      simp only [devBlocks, cells, bodies, Node.body, hn, s.counter, argStr_text]
      abel
    obtain ⟨h7, e7, s7, _⟩ := s6'.store (.head h4.next)
    have s7' : Sep h0 h7 ({(dvp, .device r)} + ({(r.peers, .head h4.next)} + {(r.info, .str istr)} +
        strBlock istr d.name + {(r.sk, .bytes d.sk.toList)} + {(r.spriv, .bytes d.spriv.toList)} +
        {(r.spub, .bytes pub)} + prlgBlock r.prlg prlg + cells (n :: ns) + bodies (n :: ns) + X)) := by
      convert s7 using 1
      abel
    obtain ⟨h8, e8, s8, _⟩ := s7'.store (.device { r with peersCounter := r.peersCounter + 1 })
    have hadd : d.add name key = (.added (some d.counter),
        { d with peers := ⟨d.counter, text name, key⟩ :: d.peers, counter := d.counter + 1 }) := by
      rw [Dev.add, if_neg (by rw [not_or]; exact hf)]
    refine ⟨h3.next, h8, some d.counter, ?_, by rw [hadd], ?_, ?_⟩
    · unfold Mem.addPeer
      simp only [run_bind, s.device, C.ok_bind, s.head, hq]
      rw [hq']
      simp only [C.ok_bind]
      rw [if_neg hng]
      simp only [run_bind, e1, C.ok_bind, e2, e3, e4, e5, e6, e7, e8, run_pure]
    · have hm : (h3.next, Block.peer d.counter h2.next h.next) ∈ ({(dvp, .device { r with peersCounter := r.peersCounter + 1 })} + ({(r.peers, .head h4.next)} + {(r.info, .str istr)} +
          strBlock istr d.name + {(r.sk, .bytes d.sk.toList)} + {(r.spriv, .bytes d.spriv.toList)} +
          {(r.spub, .bytes pub)} + prlgBlock r.prlg prlg + cells (n :: ns) + bodies (n :: ns) + X) : Blocks) := by
        have : (h3.next, Block.peer d.counter h2.next h.next) ∈ bodies (n :: ns) := by simp [bodies, Node.body, hn]
        simp [this]
      unfold readId
      rw [if_neg (s8.ne hm), run_bind]
      unfold peerGetId
      rw [run_bind, s8.loadPeer hm]
      rfl
    · rw [hadd]
      refine ⟨{ r with peersCounter := r.peersCounter + 1 }, istr, n :: ns, ⟨?_, s.name, ?_, ?_, ?_, s.len, s.prlg, s.ids.add hf.1 _ _⟩, rfl⟩
      · convert s8 using 1
        simp only [devBlocks, headOf_cons, hn]
        abel
      · intro m hm
        rcases List.mem_cons.mp hm with rfl | hm
        · rw [argStr_text] at o2; exact o2
        · exact s.nodes m hm
      · simp only [List.map_cons, s.peers, hn]
      · simp only [s.counter]

end

/-! ### Removing a peer -/

section
variable {h0 h : Heap} {dvp : ℕ} {d : Dev} {X : Blocks} {r : DeviceRec} {istr : ℕ} {prlg pub : Bytes} {ns : List Node}

/-- The blocks of a peer are released. -/
theorem Sep.freePeer {L : Blocks} (n : Node) (ho : StrOk n.str n.e.name) (s : Sep h0 h (n.body + L)) :
    ∃ h', freePeer n.peer h = .ok ((), h') ∧ Sep h0 h' ({(n.peer, .peer n.e.id n.info n.key)} + L) := by
  have hp := s.loadPeer (Multiset.mem_of_le (Multiset.le_add_right _ _) (peer_mem_body n))
  have hi := s.loadStr (Multiset.mem_of_le (Multiset.le_add_right _ _) (info_mem_body n))
  have s0 : Sep h0 h (strBlock n.str n.e.name + ({(n.info, .str n.str)} + ({(n.key, .bytes n.e.key.toList)} +
      ({(n.peer, .peer n.e.id n.info n.key)} + L)))) := by
    convert s using 1
    simp only [Node.body]
    abel
  obtain ⟨h1, e1, s1, _⟩ := s0.freeStr ho
  obtain ⟨h2, e2, s2, _⟩ := s1.free
  have e3 := s2.loadN (v := n.e.key) (a := n.key) (by simp)
  obtain ⟨h4, e4, s4, _⟩ := s2.store (.bytes (List.replicate 32 0))
  obtain ⟨h5, e5, s5, _⟩ := s4.free
  refine ⟨h5, ?_, s5⟩
  unfold Mem.freePeer
  simp only [run_bind, hp, C.ok_bind, hi, e1, e2, e3, e4, e5]

/-- The cell before the one with the given peer. -/
theorem Sep.beforeLoop {L : Blocks} (s : Sep h0 h L) (pid : UInt32) :
    ∀ (fuel : ℕ) (m : Node) (ns : List Node), ns.length < fuel → cells (m :: ns) ≤ L → bodies (m :: ns) ≤ L →
      (∀ pre n post, ns = pre ++ n :: post → (∀ x ∈ pre, x.e.id ≠ pid) → n.e.id = pid →
        beforeLoop pid fuel m.cell h = .ok (((m :: pre).getLast (by simp)).cell, h)) ∧
      ((∀ x ∈ ns, x.e.id ≠ pid) → beforeLoop pid fuel m.cell h = .ok (((m :: ns).getLast (by simp)).cell, h)) := by
  intro fuel
  induction fuel with
  | zero => intro m ns hl; omega
  | succ f ih =>
    intro m ns hl hc hb
    have hm : (m.cell, Block.cell (headOf ns) m.peer) ∈ L := Multiset.mem_of_le hc (by simp [cells])
    cases ns with
    | nil =>
      refine ⟨fun pre n post h => by simp at h, fun _ => ?_⟩
      unfold Mem.beforeLoop
      rw [run_bind, s.loadCell hm]
      simp [headOf, run_pure]
    | cons n ns =>
      have hn : (n.cell, Block.cell (headOf ns) n.peer) ∈ L := Multiset.mem_of_le hc (by simp [cells])
      have hp : (n.peer, Block.peer n.e.id n.info n.key) ∈ L :=
        Multiset.mem_of_le hb (Multiset.mem_of_le (body_le (by simp)) (peer_mem_body n))
      obtain ⟨ih1, ih2⟩ := ih n ns (by simp at hl; omega) (le_trans (Multiset.le_add_left _ _) hc)
        (le_trans (Multiset.le_add_left _ _) hb)
      have hstep : Mem.beforeLoop pid (f + 1) m.cell h =
          (if n.e.id ≠ pid then Mem.beforeLoop pid f n.cell else pure m.cell : M ℕ) h := by
        rw [Mem.beforeLoop, run_bind, s.loadCell hm]
        simp only [C.ok_bind, headOf_cons]
        rw [if_neg (s.ne hn), run_bind, s.loadCell hn, C.ok_bind, run_bind, s.loadPeer hp]
        rfl
      rw [hstep]
      refine ⟨?_, ?_⟩
      · intro pre n' post he hpre hid
        cases pre with
        | nil =>
          simp only [List.nil_append, List.cons.injEq] at he
          obtain ⟨rfl, rfl⟩ := he
          simp [hid, run_pure]
        | cons a pre =>
          simp only [List.cons_append, List.cons.injEq] at he
          obtain ⟨rfl, rfl⟩ := he
          rw [if_pos (hpre n (by simp)), ih1 pre n' post rfl (fun x hx => hpre x (by simp [hx])) hid]
          simp
      · intro hall
        rw [if_pos (hall n (by simp)), ih2 (fun x hx => hall x (by simp [hx]))]
        simp

theorem cells_append_cons (pre : List Node) (m n : Node) (post : List Node) :
    ∃ C, cells (pre ++ m :: n :: post) = {(m.cell, .cell n.cell m.peer)} + {(n.cell, .cell (headOf post) n.peer)} + C ∧
      cells (pre ++ m :: post) = {(m.cell, .cell (headOf post) m.peer)} + C := by
  induction pre with
  | nil => exact ⟨cells post, by simp only [List.nil_append, cells, headOf_cons]; abel, by simp only [List.nil_append, cells]⟩
  | cons a pre ih =>
    obtain ⟨C, h1, h2⟩ := ih
    have hh : headOf (pre ++ m :: n :: post) = headOf (pre ++ m :: post) := by cases pre <;> rfl
    refine ⟨{(a.cell, .cell (headOf (pre ++ m :: post)) a.peer)} + C, ?_, ?_⟩
    · simp only [List.cons_append, cells, h1, hh]; abel
    · simp only [List.cons_append, cells, h2]; abel

theorem bodies_append_cons (pre : List Node) (n : Node) (post : List Node) :
    bodies (pre ++ n :: post) = n.body + bodies (pre ++ post) := by
  induction pre with
  | nil => rfl
  | cons a pre ih => simp only [List.cons_append, bodies, ih]; abel

theorem IdsOk.filter (i : IdsOk d) (p : Entry → Bool) : IdsOk { d with peers := d.peers.filter p } :=
  ⟨i.pos, (List.filter_sublist.map _).nodup i.nodup, fun e he => i.lt e (List.mem_of_mem_filter he)⟩

theorem filter_ids {pre : List Node} {n : Node} {post : List Node}
    (hnd : (((pre ++ n :: post).map (·.e)).map (·.id)).Nodup) :
    ((pre ++ n :: post).map (·.e)).filter (fun e => e.id ≠ n.e.id) = (pre ++ post).map (·.e) := by
  simp only [List.map_append, List.map_cons, List.map_map] at hnd
  rw [List.nodup_append] at hnd
  obtain ⟨h1, h2, h3⟩ := hnd
  rw [List.nodup_cons] at h2
  simp only [List.map_append, List.map_cons, List.filter_append]
  congr 1
  · rw [List.filter_eq_self]
    intro e he
    simp only [ne_eq, decide_not, Bool.not_eq_true', decide_eq_false_iff_not]
    obtain ⟨m, hm, rfl⟩ := List.mem_map.mp he
    exact h3 _ (List.mem_map.mpr ⟨m, hm, rfl⟩) _ (List.mem_cons_self ..)
  · rw [List.filter_cons_of_neg (by simp), List.filter_eq_self]
    intro e he
    simp only [ne_eq, decide_not, Bool.not_eq_true', decide_eq_false_iff_not]
    obtain ⟨m, hm, rfl⟩ := List.mem_map.mp he
    intro hh
    exact h2.1 (List.mem_map.mpr ⟨m, hm, hh⟩)

/-- `remove_peer` -/
theorem Rep.removePeer (s : Rep h0 h dvp d X r istr prlg pub ns) (pid : UInt32) :
    ∃ h', removePeer dvp pid h = .ok ((), h') ∧
      Represents h0 h' dvp { d with peers := d.peers.filter fun e => e.id ≠ pid } X prlg pub r.states := by
  -- nothing is removed
  have hkeep : (∀ n ∈ ns, n.e.id ≠ pid) → d.peers.filter (fun e => e.id ≠ pid) = d.peers := by
    intro hall
    rw [List.filter_eq_self, s.peers]
    intro e he
    obtain ⟨n, hn, rfl⟩ := List.mem_map.mp he
    simpa using hall n hn
  by_cases hpid : pid = 0
  · refine ⟨h, by simp [Mem.removePeer, hpid, run_pure], ?_⟩
    rw [hkeep]
    · exact ⟨r, istr, ns, s, rfl⟩
    · rintro n hn rfl
      have := (s.ids.lt n.e (by rw [s.peers]; exact List.mem_map_of_mem hn)).1
      rw [hpid] at this
      exact absurd this (by decide)
  · cases hns : ns with
    | nil =>
      subst hns
      refine ⟨h, ?_, ?_⟩
      · unfold Mem.removePeer
        rw [if_neg hpid]
        simp only [run_bind, s.device, C.ok_bind, s.head]
        rfl
      · rw [hkeep (by simp)]
        exact ⟨r, istr, [], s, rfl⟩
    | cons m ns' =>
      subst hns
      have hmc := Multiset.mem_of_le s.cells_le (mem_cells (pre := []) (n := m) (post := ns'))
      have hmp := Multiset.mem_of_le (s.body_le (List.mem_cons_self ..)) (peer_mem_body m)
      have hne : headOf (m :: ns') ≠ 0 := s.sep.ne hmc
      by_cases hm : m.e.id = pid
      · -- the first peer
        have s1 : Sep h0 h ({(r.peers, .head m.cell)} + ({(m.cell, .cell (headOf ns') m.peer)} + (m.body +
            ({(dvp, .device r)} + {(r.info, .str istr)} +
            strBlock istr d.name + {(r.sk, .bytes d.sk.toList)} + {(r.spriv, .bytes d.spriv.toList)} +
            {(r.spub, .bytes pub)} + prlgBlock r.prlg prlg + cells ns' + bodies ns' + X)))) := by
          convert s.sep using 1
          simp only [devBlocks, cells, bodies, headOf_cons]
          abel
        obtain ⟨h1, e1, s1', _⟩ := s1.store (.head (headOf ns'))
        have s2 : Sep h0 h1 ({(m.cell, .cell (headOf ns') m.peer)} + (m.body + ({(r.peers, .head (headOf ns'))} +
            ({(dvp, .device r)} + {(r.info, .str istr)} +
            strBlock istr d.name + {(r.sk, .bytes d.sk.toList)} + {(r.spriv, .bytes d.spriv.toList)} +
            {(r.spub, .bytes pub)} + prlgBlock r.prlg prlg + cells ns' + bodies ns' + X)))) := by
          convert s1' using 1
          abel
        obtain ⟨h2, e2, s2', _⟩ := s2.free
        obtain ⟨h3, e3, s3⟩ := s2'.freePeer m (s.nodes m (List.mem_cons_self ..))
        obtain ⟨h4, e4, s4, _⟩ := s3.free
        refine ⟨h4, ?_, r, istr, ns', ⟨?_, s.name, fun n hn => s.nodes n (List.mem_cons_of_mem _ hn), ?_,
          s.counter, s.len, s.prlg, s.ids.filter _⟩, rfl⟩
        · unfold Mem.removePeer
          rw [if_neg hpid]
          simp only [run_bind, s.device, C.ok_bind, s.head]
          rw [if_neg hne]
          simp only [run_bind, headOf_cons, s.sep.loadCell hmc, C.ok_bind, s.sep.loadPeer hmp]
          rw [if_neg (by simpa using hm)]
          simp only [run_bind, C.ok_bind, s.sep.loadCell hmc, e1, e2, e3, e4]
          have := s.head
          simp only [headOf_cons] at this
          simp only [this, C.ok_bind, s.sep.loadCell hmc, e1, e2, e3, e4]
        · convert s4 using 1
          simp only [devBlocks]
          abel
        · have := filter_ids (pre := []) (n := m) (post := ns') (by
            have := s.ids.nodup
            rw [s.peers] at this
            exact this)
          rw [s.peers]
          rw [← hm]
          exact this
      · -- not the first one
        obtain ⟨hb1, hb2⟩ := s.sep.beforeLoop pid (h.next + 1) m ns' (by
          have h1 := Multiset.card_le_card s.cells_le
          rw [card_cells] at h1
          have := s.sep.card_lt
          simp only [List.length_cons] at h1
          omega) s.cells_le s.bodies_le
        have hstart : ∀ (q : ℕ), Mem.beforeLoop pid (h.next + 1) m.cell h = .ok (q, h) →
            Mem.removePeer dvp pid h = (do
              let c01 ← loadCell q
              if c01.1 = 0 then pure ()
              else do
                let c1 ← loadCell c01.1
                store q (.cell c1.1 c01.2)
                Mem.freePeer c1.2
                Mem.free c1.2
                Mem.free c01.1 : M Unit) h := by
          intro q hq
          unfold Mem.removePeer
          rw [if_neg hpid]
          simp only [run_bind, s.device, C.ok_bind, s.head]
          rw [if_neg hne]
          simp only [run_bind, headOf_cons, s.sep.loadCell hmc, C.ok_bind, s.sep.loadPeer hmp]
          rw [if_pos (by simpa using hm)]
          have := s.head
          simp only [headOf_cons] at this
          simp only [run_bind, this, C.ok_bind]
          unfold Mem.before
          rw [hq]
          rfl
        by_cases hex : ∃ n ∈ ns', n.e.id = pid
        · -- found
          obtain ⟨pre, n, post, hsplit, hpre, hn⟩ : ∃ pre n post, ns' = pre ++ n :: post ∧
              (∀ x ∈ pre, x.e.id ≠ pid) ∧ n.e.id = pid := by
            clear hstart hb1 hb2 hne hmp hmc hkeep s
            induction ns' with
            | nil => obtain ⟨n, hn, _⟩ := hex; cases hn
            | cons a l ih =>
              by_cases ha : a.e.id = pid
              · exact ⟨[], a, l, rfl, by simp, ha⟩
              · obtain ⟨pre, n, post, h1, h2, h3⟩ := ih (by
                  obtain ⟨n, hn, hid⟩ := hex
                  rcases List.mem_cons.mp hn with rfl | hn
                  · exact absurd hid ha
                  · exact ⟨n, hn, hid⟩)
                refine ⟨a :: pre, n, post, by rw [h1]; rfl, ?_, h3⟩
                intro x hx
                rcases List.mem_cons.mp hx with rfl | hx
                · exact ha
                · exact h2 x hx
          subst hsplit
          -- the node before it
          obtain ⟨pre', q, hq⟩ : ∃ pre' q, m :: pre = pre' ++ [q] :=
            ⟨(m :: pre).dropLast, (m :: pre).getLast (by simp), (List.dropLast_append_getLast (by simp)).symm⟩
          have hall : m :: (pre ++ n :: post) = pre' ++ q :: n :: post := by
            rw [← List.cons_append, hq]; simp
          have hall' : m :: (pre ++ post) = pre' ++ q :: post := by
            rw [← List.cons_append, hq]; simp
          have hlast : (m :: pre).getLast (by simp) = q := by simp [hq]
          have hloop := hb1 pre n post rfl hpre hn
          rw [hlast] at hloop
          obtain ⟨Cs, hc1, hc2⟩ := cells_append_cons pre' q n post
          have hbod : bodies (pre' ++ q :: n :: post) = n.body + bodies (pre' ++ q :: post) := by
            have := bodies_append_cons (pre' ++ [q]) n post
            simpa using this
          have hhd : headOf (pre' ++ q :: n :: post) = headOf (pre' ++ q :: post) := by cases pre' <;> rfl
          have ssep := s.sep
          rw [hall] at ssep
          have s1 : Sep h0 h ({(q.cell, .cell n.cell q.peer)} + (n.body + ({(n.cell, .cell (headOf post) n.peer)} +
              (devBlocks dvp r istr d prlg pub (headOf (pre' ++ q :: post)) + Cs + bodies (pre' ++ q :: post) + X)))) := by
            convert ssep using 1
            rw [hc1, hbod, hhd]
            abel
          have l1 := s1.loadCell (a := q.cell) (n := n.cell) (d := q.peer) (by simp)
          have hn0 : n.cell ≠ 0 := s1.ne (b := .cell (headOf post) n.peer) (by simp)
          have l2 := s1.loadCell (a := n.cell) (n := headOf post) (d := n.peer) (by simp)
          obtain ⟨h1, e1, s1', _⟩ := s1.store (.cell (headOf post) q.peer)
          have s2 : Sep h0 h1 (n.body + ({(n.cell, .cell (headOf post) n.peer)} + ({(q.cell, .cell (headOf post) q.peer)} +
              (devBlocks dvp r istr d prlg pub (headOf (pre' ++ q :: post)) + Cs + bodies (pre' ++ q :: post) + X)))) := by
            convert s1' using 1
            abel
          obtain ⟨h2, e2, s2'⟩ := s2.freePeer n (s.nodes n (by simp))
          obtain ⟨h3, e3, s3, _⟩ := s2'.free
          obtain ⟨h4, e4, s4, _⟩ := s3.free
          refine ⟨h4, ?_, r, istr, pre' ++ q :: post, ⟨?_, s.name, ?_, ?_, s.counter, s.len, s.prlg, s.ids.filter _⟩, rfl⟩
          · rw [hstart _ hloop]
            simp only [run_bind, l1, C.ok_bind]
            rw [if_neg hn0]
            simp only [run_bind, l2, C.ok_bind, e1, e2, e3, e4]
          · convert s4 using 1
            rw [hc2]
            simp only [devBlocks]
            abel
          · rw [← hall']
            intro x hx
            refine s.nodes x ?_
            simp only [List.mem_cons, List.mem_append] at hx ⊢
            tauto
          · have := filter_ids (pre := pre' ++ [q]) (n := n) (post := post) (by
              have := s.ids.nodup
              rw [s.peers, hall] at this
              simpa using this)
            simp only
            rw [s.peers, hall, ← hn]
            simpa using this
        · -- not found
          have hno : ∀ x ∈ ns', x.e.id ≠ pid := fun x hx he => hex ⟨x, hx, he⟩
          have hloop := hb2 hno
          obtain ⟨pre', q, hq⟩ : ∃ pre' q, m :: ns' = pre' ++ [q] :=
            ⟨(m :: ns').dropLast, (m :: ns').getLast (by simp), (List.dropLast_append_getLast (by simp)).symm⟩
          have hlast : (m :: ns').getLast (by simp) = q := by simp [hq]
          rw [hlast] at hloop
          have l1 := s.sep.loadCell (a := q.cell) (n := 0) (d := q.peer) (Multiset.mem_of_le s.cells_le (by
            rw [hq]; exact mem_cells (pre := pre') (n := q) (post := [])))
          refine ⟨h, ?_, ?_⟩
          · rw [hstart _ hloop, run_bind, l1]
            rfl
          · rw [hkeep]
            · exact ⟨r, istr, _, s, rfl⟩
            · intro n hn'
              rcases List.mem_cons.mp hn' with rfl | hn'
              · exact hm
              · exact hno n hn'

end

/-! ### Creation -/

section
variable [NoiseCrypto] {h0 h : Heap} {X : Blocks}

theorem fresh_ids (name : Option Bytes) (sk spriv : B32) : IdsOk (fresh name sk spriv) :=
  ⟨by simp [fresh], by simp [fresh], by simp [fresh]⟩

theorem Sep.newDevice {L : Blocks} (prlg : Bytes) (name : Option Bytes) (sk spriv : B32) {a b c : ℕ} {pub : Bytes}
    (s : Sep h0 h ({(a, .bytes sk.toList)} + {(b, .bytes spriv.toList)} + {(c, .bytes pub)} + L)) :
    ∃ dvp h', newDevice prlg name a b c h = .ok (dvp, h') ∧ dvp ≠ 0 ∧
      ∃ r istr, Rep h0 h' dvp (fresh name sk spriv) L r istr prlg pub [] ∧ r.states = 1 := by
  obtain ⟨p, h1, e1, s1, hp⟩ : ∃ p h1, (if prlg.length > 0 then Mem.alloc (.bytes prlg) else pure 0 : M ℕ) h = .ok (p, h1) ∧
      Sep h0 h1 (prlgBlock p prlg + ({(a, .bytes sk.toList)} + {(b, .bytes spriv.toList)} + {(c, .bytes pub)} + L)) ∧
      (prlg = [] → p = 0) := by
    by_cases he : prlg = []
    · exact ⟨0, h, by simp [he, run_pure], by simpa [prlgBlock, he] using s, fun _ => rfl⟩
    · obtain ⟨h1, e1, s1, _⟩ := s.alloc (.bytes prlg)
      refine ⟨h.next, h1, ?_, by simpa [prlgBlock, he] using s1, fun h => absurd h he⟩
      rw [if_pos (List.length_pos_iff.mpr he)]
      exact e1
  obtain ⟨q, h2, e2, s2, o2, _, _⟩ := s1.copyStr (t := argStr name) (by rw [argStr_text]; exact zero_notMem_text _)
  obtain ⟨h3, e3, s3, _⟩ := s2.alloc (.str q)
  obtain ⟨h4, e4, s4, _⟩ := s3.alloc (.head 0)
  obtain ⟨h5, e5, s5, _⟩ := s4.alloc (.device { info := h2.next, sk := a, spriv := b, spub := c, prlgLen := prlg.length, prlg := p, states := 1, peers := h3.next, peersCounter := 1 })
  refine ⟨h4.next, h5, ?_, s5.ne (Multiset.mem_add.mpr (.inl (Multiset.mem_singleton_self _))),
    { info := h2.next, sk := a, spriv := b, spub := c, prlgLen := prlg.length, prlg := p, states := 1, peers := h3.next, peersCounter := 1 }, q,
    ⟨?_, ?_, by simp [NodesOk], rfl, rfl, rfl, hp, fresh_ids _ _ _⟩, rfl⟩
  · unfold Mem.newDevice
    by_cases hq : prlg.length > 0
    · simp only [hq, if_true] at e1 ⊢
      simp only [run_bind, e1, C.ok_bind, e2, e3, e4, e5]
    · simp only [hq, if_false] at e1 ⊢
      simp only [run_bind, e1, C.ok_bind, e2, e3, e4, e5]
  · convert s5 using 1
    simp only [devBlocks, headOf, cells, bodies, fresh, argStr_text]
    abel
  · rw [argStr_text] at o2; exact o2

/-- `device_create` -/
theorem Sep.create (s : Sep h0 h X) (prlg : Bytes) (name : Option Bytes) (sk spriv : B32) :
    ∃ dvp h', create prlg name sk spriv h = .ok (dvp, h') ∧ dvp ≠ 0 ∧
      ∃ r istr, Rep h0 h' dvp (fresh name sk spriv) X r istr prlg (xbase spriv).toList [] ∧ r.states = 1 := by
  obtain ⟨h1, e1, s1, _⟩ := s.alloc (.bytes sk.toList)
  obtain ⟨h2, e2, s2, _⟩ := s1.alloc (.bytes spriv.toList)
  obtain ⟨h3, e3, s3, _⟩ := s2.alloc (.bytes (xbase spriv).toList)
  obtain ⟨dvp, h', e4, hn, hr⟩ := Sep.newDevice prlg name sk spriv (a := h.next) (b := h1.next) (c := h2.next)
    (pub := (xbase spriv).toList) (L := X) (h0 := h0) (h := h3) (by convert s3 using 1; abel)
  refine ⟨dvp, h', ?_, hn, hr⟩
  unfold Mem.create
  simp only [run_bind, e1, C.ok_bind, e2, e3, e4]

/-- `device_create_from_secret`: the device, or NULL if the record cannot be decrypted. -/
theorem Sep.createFromSecret (s : Sep h0 h X) (prlg : Bytes) (name : Option Bytes) (sk : B32) {rec : Bytes}
    (hl : 56 ≤ rec.length) :
    ∃ dvp h', createFromSecret prlg name sk rec h = .ok (dvp, h') ∧
      match aeadDec sk (UInt64.ofNat (leNat (rec.take 8))) (text name) ((rec.drop 8).take 48) with
      | none => dvp = 0 ∧ Sep h0 h' X
      | some k => dvp ≠ 0 ∧ ∃ r istr, Rep h0 h' dvp (fresh name sk (toB32 k)) X r istr prlg (xbase (toB32 k)).toList [] ∧
          r.states = 1 := by
  obtain ⟨h1, e1, s1, _⟩ := s.alloc (.bytes (List.replicate 32 0))
  cases hd : aeadDec sk (UInt64.ofNat (leNat (rec.take 8))) (text name) ((rec.drop 8).take 48) with
  | none =>
    obtain ⟨h2, e2, s2, _⟩ := s1.free
    refine ⟨0, h2, ?_, rfl, s2⟩
    unfold Mem.createFromSecret
    simp only [run_bind, e1, C.ok_bind]
    rw [if_neg (by omega)]
    simp only [argStr_text, bytesToNonce, hd, run_bind, e2, C.ok_bind, run_pure]
  | some k =>
    have hk : k.length = 32 := by
      have := dec_length _ _ _ _ _ hd
      simp at this
      omega
    obtain ⟨h2, e2, s2, _⟩ := s1.store (.bytes k)
    obtain ⟨h3, e3, s3, _⟩ := s2.alloc (.bytes sk.toList)
    obtain ⟨h4, e4, s4, _⟩ := s3.alloc (.bytes (xbase (toB32 k)).toList)
    obtain ⟨dvp, h', e5, hn, hr⟩ := Sep.newDevice prlg name sk (toB32 k) (a := h2.next) (b := h.next) (c := h3.next)
      (pub := (xbase (toB32 k)).toList) (L := X) (h0 := h0) (h := h4)
      (by convert s4 using 1; rw [toB32_list hk]; abel)
    refine ⟨dvp, h', ?_, hn, hr⟩
    unfold Mem.createFromSecret
    simp only [run_bind, e1, C.ok_bind]
    rw [if_neg (by omega)]
    simp only [argStr_text, bytesToNonce, hd, run_bind, e2, C.ok_bind, e3, e4, e5]

end

/-! ### Stored records -/

section
variable [NoiseCrypto] {h0 h : Heap} {dvp : ℕ} {d : Dev} {X : Blocks} {r : DeviceRec} {istr : ℕ} {prlg pub : Bytes}
  {ns : List Node}

theorem Rep.with {h' : Heap} {Y : Blocks} (s : Rep h0 h dvp d X r istr prlg pub ns)
    (hs : Sep h0 h' (devBlocks dvp r istr d prlg pub (headOf ns) + cells ns + bodies ns + Y)) :
    Rep h0 h' dvp d Y r istr prlg pub ns := ⟨hs, s.name, s.nodes, s.peers, s.counter, s.len, s.prlg, s.ids⟩

theorem Rep.readRecord {b : Bytes} {a : ℕ} (s : Rep h0 h dvp d ({(a, .bytes b)} + X) r istr prlg pub ns) :
    ∃ h', readRecord a h = .ok (some b, h') ∧ Rep h0 h' dvp d X r istr prlg pub ns := by
  have s1 : Sep h0 h ({(a, .bytes b)} + (devBlocks dvp r istr d prlg pub (headOf ns) + cells ns + bodies ns + X)) := by
    convert s.sep using 1; abel
  obtain ⟨h', e, s', _⟩ := s1.free
  refine ⟨h', ?_, s.with s'⟩
  unfold Spec.Device.readRecord
  rw [if_neg (s1.ne (b := .bytes b) (by simp)), run_bind, s1.loadBytes (b := b) (by simp), C.ok_bind, run_bind, e]
  rfl

/-- `serialize_device_secret` -/
theorem Rep.serializeDevice (s : Rep h0 h dvp d X r istr prlg pub ns) (n8 : Bytes) :
    ∃ p h', serializeDevice dvp n8 h = .ok (p, h') ∧
      Rep h0 h' dvp d ({(p, .bytes (record d.sk n8 d.name d.spriv))} + X) r istr prlg pub ns := by
  obtain ⟨h1, e1, s1, _⟩ := s.sep.alloc (.bytes (record d.sk n8 d.name d.spriv))
  refine ⟨h.next, h1, ?_, s.with (by convert s1 using 1; abel)⟩
  have l1 : Mem.loadStr r.info h = .ok (istr, h) := s.sep.loadStr (by simp [devBlocks])
  have l2 : Mem.storedStr istr h = .ok (d.name, h) := s.sep.storedStr s.name (by
    refine le_trans ?_ (le_trans (Multiset.le_add_right _ _) (le_trans (Multiset.le_add_right _ _) (Multiset.le_add_right _ _)))
    unfold devBlocks
    refine Multiset.le_iff_exists_add.mpr ⟨{(dvp, .device r)} + {(r.info, .str istr)} + {(r.sk, .bytes d.sk.toList)} +
      {(r.spriv, .bytes d.spriv.toList)} + {(r.spub, .bytes pub)} + prlgBlock r.prlg prlg + {(r.peers, .head (headOf ns))}, ?_⟩
    abel)
  unfold Mem.serializeDevice
  simp only [run_bind, s.device, C.ok_bind, l1, l2, s.sk, s.spriv, toB32_toList, bytesToNonce]
  exact e1

/-- `serialize_peer_secret` -/
theorem Rep.serializePeer (s : Rep h0 h dvp d X r istr prlg pub ns) {n : Node} (hn : n ∈ ns) (n8 : Bytes) :
    ∃ p h', serializePeer dvp n.peer n8 h = .ok (p, h') ∧
      Rep h0 h' dvp d ({(p, .bytes (record d.sk n8 n.e.name n.e.key))} + X) r istr prlg pub ns := by
  have hb := s.body_le hn
  have hp := Multiset.mem_of_le hb (peer_mem_body n)
  obtain ⟨h1, e1, s1, _⟩ := s.sep.alloc (.bytes (List.replicate 32 0))
  have hb1 := le_trans hb (Multiset.le_add_left _ {(h.next, .bytes (List.replicate 32 0))})
  have l1 := s1.loadN (Multiset.mem_of_le hb1 (key_mem_body n))
  obtain ⟨h2, e2, s2, _⟩ := s1.store (.bytes n.e.key.toList)
  have hb2 := le_trans hb (Multiset.le_add_left _ {(h.next, .bytes n.e.key.toList)})
  have l2 := s2.loadStr (Multiset.mem_of_le hb2 (info_mem_body n))
  have l3 := s2.storedStr (s.nodes n hn) (le_trans (str_le_body n) hb2)
  have l4 : Mem.loadN r.sk 32 h2 = .ok (d.sk.toList, h2) := s2.loadN (by simp [devBlocks])
  obtain ⟨h3, e3, s3, _⟩ := s2.alloc (.bytes (record d.sk n8 n.e.name n.e.key))
  have s3' : Sep h0 h3 ({(h.next, .bytes n.e.key.toList)} + (devBlocks dvp r istr d prlg pub (headOf ns) + cells ns +
      bodies ns + ({(h2.next, .bytes (record d.sk n8 n.e.name n.e.key))} + X))) := by
    convert s3 using 1; abel
  obtain ⟨h4, e4, s4, _⟩ := s3'.free
  refine ⟨h2.next, h4, ?_, s.with s4⟩
  unfold Mem.serializePeer
  rw [if_neg (s.sep.ne hp)]
  simp only [run_bind, s.device, C.ok_bind, s.sep.loadPeer hp, e1, l1, e2, l2, l3, l4, toB32_toList, bytesToNonce]
  unfold record at e3
  rw [e3]
  simp only [C.ok_bind, e4, run_pure]

/-- `deserialize_peer_secret` -/
theorem Rep.deserializePeer (s : Rep h0 h dvp d X r istr prlg pub ns) (name : Option Bytes) (rec : Bytes) :
    ∃ pp h' i, deserializePeer dvp name rec h = .ok (pp, h') ∧ (d.step (.loadPeer name rec)).1 = .added i ∧
      readId pp h' = .ok (i, h') ∧ Represents h0 h' dvp (d.step (.loadPeer name rec)).2 X prlg pub r.states := by
  by_cases hl : rec.length = 56
  · obtain ⟨h1, e1, s1, _⟩ := s.sep.alloc (.bytes (List.replicate 32 0))
    have l1 : Mem.loadN r.sk 32 h1 = .ok (d.sk.toList, h1) := s1.loadN (by simp [devBlocks])
    cases hd : aeadDec d.sk (UInt64.ofNat (leNat (rec.take 8))) (text name) (rec.drop 8) with
    | none =>
      obtain ⟨h2, e2, s2, _⟩ := s1.free
      refine ⟨0, h2, none, ?_, by simp [Dev.step, hl, hd], by simp [readId, run_pure], ?_⟩
      · unfold Mem.deserializePeer
        simp only [run_bind, s.device, C.ok_bind]
        rw [if_neg (by simp [hl])]
        simp only [run_bind, e1, C.ok_bind, l1, toB32_toList, bytesToNonce, argStr_text, hd, e2, run_pure]
      · simp only [Dev.step, hl, hd, if_true]
        exact ⟨r, istr, ns, s.with s2, rfl⟩
    | some k =>
      obtain ⟨h2, e2, s2, _⟩ := s1.store (.bytes k)
      obtain ⟨pp, h3, i, e3, hi, hr, r', istr', ns', s3, hst⟩ := (s.with (h' := h2)
        (Y := {(h.next, .bytes k)} + X) (by convert s2 using 1; abel)).addPeer name (toB32 k)
      have s3' : Sep h0 h3 ({(h.next, .bytes k)} + (devBlocks dvp r' istr' (d.add name (toB32 k)).2 prlg pub (headOf ns') +
          cells ns' + bodies ns' + X)) := by
        convert s3.sep using 1; abel
      obtain ⟨h4, e4, s4, _⟩ := s3'.free
      have hstep : d.step (.loadPeer name rec) = d.add name (toB32 k) := by simp [Dev.step, hl, hd]
      rw [hstep]
      refine ⟨pp, h4, i, ?_, hi, ?_, r', istr', ns', s3.with s4, hst⟩
      · unfold Mem.deserializePeer
        simp only [run_bind, s.device, C.ok_bind]
        rw [if_neg (by simp [hl])]
        simp only [run_bind, e1, C.ok_bind, l1, toB32_toList, bytesToNonce, argStr_text, hd, e2, e3, e4, run_pure]
      · -- the record read after the buffer was freed
        unfold readId at hr ⊢
        by_cases hpp : pp = 0
        · rw [if_pos hpp] at hr ⊢
          simp only [run_pure, C.ok.injEq, Prod.mk.injEq] at hr ⊢
          exact ⟨hr.1, trivial⟩
        · rw [if_neg hpp] at hr ⊢
          simp only [run_bind, peerGetId, loadPeer, load, hpp, if_false] at hr ⊢
          have hne : pp ≠ h.next := by
            rintro rfl
            have := (s3'.at_ (h.next, .bytes k) (by simp)).2.2
            simp only at this
            rw [this] at hr
            simp [ub, run_bind] at hr
          have hmem : h4.mem pp = h3.mem pp := by
            unfold Mem.free at e4
            have := (s3'.at_ (h.next, .bytes k) (by simp)).2.2
            simp only at this
            rw [if_neg (s3'.ne (b := .bytes k) (by simp)), this] at e4
            simp only [C.ok.injEq, Prod.mk.injEq, true_and] at e4
            rw [← e4]
            exact Function.update_of_ne hne _ _
          rw [hmem]
          cases hb : h3.mem pp with
          | none => rw [hb] at hr; simp at hr
          | some b =>
            rw [hb] at hr
            cases b <;> simp_all [ub, run_bind, run_pure]
  · refine ⟨0, h, none, ?_, by simp [Dev.step, hl], by simp [readId, run_pure], ?_⟩
    · unfold Mem.deserializePeer
      simp only [run_bind, s.device, C.ok_bind]
      rw [if_pos (Ne.symm hl)]
      rfl
    · simp only [Dev.step, hl, if_false]
      exact ⟨r, istr, ns, s, rfl⟩

/-! ### All calls -/

theorem Rep.call (s : Rep h0 h dvp d X r istr prlg pub ns) (o : Op) :
    ∃ h', call dvp o h = .ok ((d.step o).1, h') ∧ Represents h0 h' dvp (d.step o).2 X prlg pub r.states := by
  have hfind : ∀ p : Entry → Bool, d.peers.find? p = (ns.find? fun n => p n.e).map (·.e) := by
    intro p; rw [s.peers]; exact find_entry p ns
  cases o with
  | add name key =>
    obtain ⟨pp, h', i, e, hi, hr, hs⟩ := s.addPeer name key
    refine ⟨h', ?_, hs⟩
    simp only [Spec.Device.call, run_bind, e, C.ok_bind, hr, run_pure, Dev.step, hi]
  | remove id =>
    obtain ⟨h', e, hs⟩ := s.removePeer id
    refine ⟨h', ?_, hs⟩
    simp only [Spec.Device.call, run_bind, e, C.ok_bind, run_pure, Dev.step]
  | byId id =>
    have e1 := s.lookupById id
    simp only [Dev.step, hfind]
    cases hf : ns.find? fun n => decide (n.e.id = id) with
    | none =>
      rw [hf] at e1
      refine ⟨h, ?_, r, istr, ns, s, rfl⟩
      simp only [Spec.Device.call, run_bind, e1, C.ok_bind, run_pure, Option.map_none, Option.getD_none,
        Spec.Device.readPeer, if_true]
    | some n =>
      rw [hf] at e1
      obtain ⟨h', e2, s'⟩ := s.readPeer (List.mem_of_find?_eq_some hf)
      refine ⟨h', ?_, r, istr, ns, s', rfl⟩
      simp only [Spec.Device.call, run_bind, e1, C.ok_bind, run_pure, Option.map_some, Option.getD_some, e2]
  | byKey key =>
    have e1 := s.lookupByStatic key
    simp only [Dev.step, hfind]
    cases hf : ns.find? fun n => decide (n.e.key = key) with
    | none =>
      rw [hf] at e1
      refine ⟨h, ?_, r, istr, ns, s, rfl⟩
      simp only [Spec.Device.call, run_bind, e1, C.ok_bind, run_pure, Option.map_none, Option.getD_none,
        Spec.Device.readPeer, if_true]
    | some n =>
      rw [hf] at e1
      obtain ⟨h', e2, s'⟩ := s.readPeer (List.mem_of_find?_eq_some hf)
      refine ⟨h', ?_, r, istr, ns, s', rfl⟩
      simp only [Spec.Device.call, run_bind, e1, C.ok_bind, run_pure, Option.map_some, Option.getD_some, e2]
  | saveDevice n8 =>
    obtain ⟨p, h1, e1, s1⟩ := s.serializeDevice n8
    obtain ⟨h2, e2, s2⟩ := s1.readRecord
    refine ⟨h2, ?_, r, istr, ns, s2, rfl⟩
    simp only [Spec.Device.call, run_bind, e1, C.ok_bind, e2, run_pure, Dev.step]
  | savePeer id n8 =>
    have e1 := s.lookupById id
    simp only [Dev.step, hfind]
    cases hf : ns.find? fun n => decide (n.e.id = id) with
    | none =>
      rw [hf] at e1
      refine ⟨h, ?_, r, istr, ns, s, rfl⟩
      simp only [Spec.Device.call, run_bind, e1, C.ok_bind, run_pure, Option.map_none, Option.getD_none,
        Mem.serializePeer, Spec.Device.readRecord, if_true]
    | some n =>
      rw [hf] at e1
      obtain ⟨p, h1, e2, s1⟩ := s.serializePeer (List.mem_of_find?_eq_some hf) n8
      obtain ⟨h2, e3, s2⟩ := s1.readRecord
      refine ⟨h2, ?_, r, istr, ns, s2, rfl⟩
      simp only [Spec.Device.call, run_bind, e1, C.ok_bind, run_pure, Option.map_some, Option.getD_some, e2, e3]
  | loadPeer name rec =>
    obtain ⟨pp, h', i, e, hi, hr, hs⟩ := s.deserializePeer name rec
    refine ⟨h', ?_, hs⟩
    simp only [Spec.Device.call, run_bind, e, C.ok_bind, hr, run_pure, hi]

theorem Represents.calls {h0 : Heap} {dvp : ℕ} {X : Blocks} {c : UInt32} (os : List Op) {h : Heap} {d : Dev}
    (s : Represents h0 h dvp d X prlg pub c) :
    ∃ h', calls dvp os h = .ok ((d.run os).1, h') ∧ Represents h0 h' dvp (d.run os).2 X prlg pub c := by
  induction os generalizing h d with
  | nil => exact ⟨h, rfl, s⟩
  | cons o os ih =>
    obtain ⟨r, istr, ns, s, rfl⟩ := s
    obtain ⟨h1, e1, s1⟩ := s.call o
    obtain ⟨h2, e2, s2⟩ := ih s1
    refine ⟨h2, ?_, s2⟩
    simp only [Spec.Device.calls, run_bind, e1, C.ok_bind, e2, run_pure, Dev.run]

end

/-! ### Release -/

section
variable {h0 h : Heap} {dvp : ℕ} {d : Dev} {X : Blocks} {r : DeviceRec} {istr : ℕ} {prlg pub : Bytes} {ns : List Node}

theorem Sep.freeCells :
    ∀ (fuel : ℕ) (ns : List Node) {L : Blocks} {h : Heap}, ns.length < fuel → Sep h0 h (cells ns + L) →
      ∃ h', freeCells fuel (headOf ns) h = .ok ((), h') ∧ Sep h0 h' L ∧ ∃ x, h'.released = x ++ h.released := by
  intro fuel
  induction fuel with
  | zero => intro ns L h hl; omega
  | succ f ih =>
    intro ns L h hl s
    cases ns with
    | nil => exact ⟨h, by simp [Mem.freeCells, headOf, run_pure], by simpa [cells] using s, [], rfl⟩
    | cons n ns =>
      have hm : (n.cell, Block.cell (headOf ns) n.peer) ∈ cells (n :: ns) + L := by simp [cells]
      obtain ⟨h1, e1, s1, x1, hx1⟩ := ih ns (L := {(n.cell, .cell (headOf ns) n.peer)} + L) (h := h)
        (by simp at hl; omega) (by convert s using 1; simp only [cells]; abel)
      obtain ⟨h2, e2, s2, hx2⟩ := s1.free
      refine ⟨h2, ?_, s2, _ :: x1, by rw [hx2, hx1]; rfl⟩
      unfold Mem.freeCells
      rw [headOf_cons, if_neg (s.ne hm)]
      simp only [headOf_cons, run_bind, s.loadCell hm, C.ok_bind, e1, e2]

/-- `device_free`: of the blocks of the device, the serialisation key and the bodies of the peers stay; the private key
is handed back with its contents. -/
theorem Rep.deviceFree (s : Rep h0 h dvp d X r istr prlg pub ns) :
    ∃ h', deviceFree dvp h = .ok ((), h') ∧ Sep h0 h' ({(r.sk, .bytes d.sk.toList)} + bodies ns + X) ∧
      Block.bytes d.spriv.toList ∈ h'.released := by
  have l1 : Mem.loadStr r.info h = .ok (istr, h) := s.sep.loadStr (by simp [devBlocks])
  have s0 : Sep h0 h (strBlock istr d.name + ({(r.info, .str istr)} + (cells ns + ({(r.peers, .head (headOf ns))} +
      ({(r.spriv, .bytes d.spriv.toList)} + ({(r.spub, .bytes pub)} + (prlgBlock r.prlg prlg + ({(dvp, .device r)} +
      ({(r.sk, .bytes d.sk.toList)} + bodies ns + X))))))))) := by
    convert s.sep using 1
    simp only [devBlocks]
    abel
  obtain ⟨h1, e1, s1, _⟩ := s0.freeStr s.name
  obtain ⟨h2, e2, s2, _⟩ := s1.free
  have l2 : Mem.loadHead r.peers h2 = .ok (headOf ns, h2) := s2.loadHead (by simp)
  obtain ⟨h3, e3, s3, _⟩ := Sep.freeCells (h2.next + 1) ns (by
    have h1 := Multiset.card_le_card (Multiset.le_add_right (cells ns) ({(r.peers, .head (headOf ns))} +
      ({(r.spriv, .bytes d.spriv.toList)} + ({(r.spub, .bytes pub)} + (prlgBlock r.prlg prlg + ({(dvp, .device r)} +
      ({(r.sk, .bytes d.sk.toList)} + bodies ns + X)))))))
    rw [card_cells] at h1
    have := s2.card_lt
    omega) s2
  obtain ⟨h4, e4, s4, _⟩ := s3.store (.head 0)
  obtain ⟨h5, e5, s5, _⟩ := s4.free
  obtain ⟨h6, e6, s6, r6⟩ := s5.free
  obtain ⟨h7, e7, s7, r7⟩ := s6.free
  obtain ⟨h8, e8, s8, x8, r8⟩ : ∃ h8, freeSome r.prlg h7 = .ok ((), h8) ∧
      Sep h0 h8 ({(dvp, .device r)} + ({(r.sk, .bytes d.sk.toList)} + bodies ns + X)) ∧
      ∃ x, h8.released = x ++ h7.released := by
    by_cases hp : prlg = []
    · refine ⟨h7, by simp [freeSome, s.prlg hp, run_pure], by simpa [prlgBlock, hp] using s7, [], rfl⟩
    · have s7' : Sep h0 h7 ({(r.prlg, .bytes prlg)} + ({(dvp, .device r)} + ({(r.sk, .bytes d.sk.toList)} + bodies ns + X))) := by
        simpa [prlgBlock, hp] using s7
      obtain ⟨h8, e8, s8, r8⟩ := s7'.free
      refine ⟨h8, ?_, s8, [_], r8⟩
      rw [freeSome, if_pos (s7'.ne (b := .bytes prlg) (by simp))]
      exact e8
  obtain ⟨h9, e9, s9, r9⟩ := s8.free
  refine ⟨h9, ?_, s9, ?_⟩
  · unfold Mem.deviceFree
    simp only [run_bind, s.device, C.ok_bind, l1, e1, e2, l2, e3, e4, e5, e6, e7, e8, e9]
  · rw [r9, r8, r7, r6]
    simp

end

/-! ### Consequences -/

theorem Sep.below {h0 h : Heap} {L : Blocks} (s : Sep h0 h L) {a : ℕ} (ha : a < h0.next) : h.mem a = h0.mem a := by
  refine s.frame a fun hm => ?_
  obtain ⟨p, hp, rfl⟩ := Multiset.mem_map.mp hm
  exact absurd (s.at_ p hp).1 (by omega)

theorem Sep.addresses {h0 h : Heap} {L : Blocks} (s : Sep h0 h L) :
    ∃ l : List ℕ, l.Nodup ∧ (∀ a, h0.next ≤ a → (h.mem a ≠ none ↔ a ∈ l)) ∧ l.length = Multiset.card L := by
  obtain ⟨l, hl⟩ : ∃ l : List ℕ, (l : Multiset ℕ) = L.map Prod.fst := ⟨_, Quot.out_eq _⟩
  refine ⟨l, ?_, fun a ha => ?_, ?_⟩
  · rw [← Multiset.coe_nodup, hl]; exact s.nodup
  · rw [← Multiset.mem_coe, hl]
    constructor
    · intro h1
      by_contra h2
      exact h1 (by rw [s.frame a h2]; exact s.ok0.2 a ha)
    · intro h1
      obtain ⟨p, hp, rfl⟩ := Multiset.mem_map.mp h1
      rw [(s.at_ p hp).2.2]
      simp
  · rw [← Multiset.coe_card, hl, Multiset.card_map]

theorem card_bodies (ns : List Node) : Multiset.card (bodies ns) = peerBlocks (ns.map (·.e)) := by
  induction ns with
  | nil => rfl
  | cons n ns ih =>
    simp only [bodies, Multiset.card_add, ih, peerBlocks, List.map_cons, List.sum_cons, Node.body, Multiset.card_singleton,
      strBlock]
    split <;> simp

section
variable [NoiseCrypto]

theorem step_keys (d : Dev) (o : Op) : (d.step o).2.sk = d.sk ∧ (d.step o).2.spriv = d.spriv ∧ (d.step o).2.name = d.name := by
  cases o <;> simp only [Dev.step, Dev.add, and_self]
  · split <;> exact ⟨rfl, rfl, rfl⟩
  · split
    · split
      · split <;> exact ⟨rfl, rfl, rfl⟩
      · exact ⟨rfl, rfl, rfl⟩
    · exact ⟨rfl, rfl, rfl⟩

theorem run_keys (d : Dev) (os : List Op) : (d.run os).2.sk = d.sk ∧ (d.run os).2.spriv = d.spriv := by
  induction os generalizing d with
  | nil => exact ⟨rfl, rfl⟩
  | cons o os ih => simp only [Dev.run, ih, step_keys, and_self]

theorem run_name (d : Dev) (os : List Op) : (d.run os).2.name = d.name := by
  induction os generalizing d with
  | nil => rfl
  | cons o os ih => simp only [Dev.run, ih, step_keys]

/-- What a call can do to the peers and the counter. -/
theorem step_cases (d : Dev) (o : Op) :
    ((d.step o).2 = d ∧ addedIds [(d.step o).1] = []) ∨
    (∃ id, (d.step o).2.peers = d.peers.filter (fun e => e.id ≠ id) ∧ (d.step o).2.counter = d.counter ∧
      addedIds [(d.step o).1] = []) ∨
    (∃ name key, key ∉ d.peers.map (·.key) ∧ d.counter ≠ 4294967295 ∧ (d.step o).1 = .added (some d.counter) ∧
      (d.step o).2.peers = ⟨d.counter, name, key⟩ :: d.peers ∧ (d.step o).2.counter = d.counter + 1) := by
  have hadd : ∀ name key, ((d.add name key).2 = d ∧ addedIds [(d.add name key).1] = []) ∨
      (key ∉ d.peers.map (·.key) ∧ d.counter ≠ 4294967295 ∧ (d.add name key).1 = .added (some d.counter) ∧
      (d.add name key).2.peers = ⟨d.counter, text name, key⟩ :: d.peers ∧ (d.add name key).2.counter = d.counter + 1) := by
    intro name key
    unfold Dev.add
    split
    · exact .inl ⟨rfl, rfl⟩
    · rename_i h
      rw [not_or] at h
      exact .inr ⟨h.2, h.1, rfl, rfl, rfl⟩
  cases o with
  | add name key => exact (hadd name key).imp id fun h => .inr ⟨_, _, h⟩
  | remove id => exact .inr (.inl ⟨id, rfl, rfl, rfl⟩)
  | byId id => exact .inl ⟨rfl, rfl⟩
  | byKey key => exact .inl ⟨rfl, rfl⟩
  | saveDevice n => exact .inl ⟨rfl, rfl⟩
  | savePeer id n => exact .inl ⟨rfl, rfl⟩
  | loadPeer name r =>
    simp only [Dev.step]
    split
    · split
      · exact (hadd _ _).imp id fun h => .inr ⟨_, _, h⟩
      · exact .inl ⟨rfl, rfl⟩
    · exact .inl ⟨rfl, rfl⟩

theorem addedIds_cons (o : Out) (os : List Out) : addedIds (o :: os) = addedIds [o] ++ addedIds os := by
  rcases o with _ | (_ | _) | _ | _ <;> rfl

theorem counter_lt {c : UInt32} (h : c ≠ 4294967295) : c < c + 1 := by
  rw [UInt32.lt_iff_toNat_lt, UInt32.toNat_add]
  have h1 : c.toNat ≠ 4294967295 := fun h' => h (UInt32.toNat.inj h')
  have h2 := c.toNat_lt
  simp only [UInt32.reduceToNat]
  omega

theorem addedIds_sorted (os : List Op) (d : Dev) :
    (addedIds (d.run os).1).Pairwise (· < ·) ∧ ∀ i ∈ addedIds (d.run os).1, d.counter ≤ i := by
  induction os generalizing d with
  | nil => simp [Dev.run, addedIds]
  | cons o os ih =>
    obtain ⟨ih1, ih2⟩ := ih (d.step o).2
    simp only [Dev.run]
    rw [addedIds_cons]
    rcases step_cases d o with ⟨h1, h2⟩ | ⟨id, _, h1, h2⟩ | ⟨name, key, _, hc, h1, _, h2⟩
    · rw [h2]; rw [h1] at ih1 ih2 ⊢; exact ⟨ih1, ih2⟩
    · rw [h2]; rw [h1] at ih2; exact ⟨ih1, ih2⟩
    · rw [h1]
      rw [h2] at ih2
      simp only [addedIds, List.cons_append, List.nil_append, List.pairwise_cons, List.mem_cons]
      have hlt := counter_lt hc
      refine ⟨⟨fun i hi => UInt32.lt_of_lt_of_le hlt (ih2 i hi), ih1⟩, ?_⟩
      rintro i (rfl | hi)
      · exact UInt32.le_refl _
      · exact UInt32.le_of_lt (UInt32.lt_of_lt_of_le hlt (ih2 i hi))

def Distinct (d : Dev) : Prop :=
  (d.peers.map (·.id)).Nodup ∧ (d.peers.map (·.key)).Nodup ∧ ∀ e ∈ d.peers, e.id < d.counter

theorem distinct_step (d : Dev) (o : Op) (h : Distinct d) : Distinct (d.step o).2 := by
  rcases step_cases d o with ⟨h1, _⟩ | ⟨id, h1, h2, _⟩ | ⟨name, key, hk, hc, _, h1, h2⟩
  · rw [h1]; exact h
  · unfold Distinct
    rw [h1, h2]
    exact ⟨h.1.sublist (List.filter_sublist.map _), h.2.1.sublist (List.filter_sublist.map _),
      fun e he => h.2.2 e (List.mem_of_mem_filter he)⟩
  · unfold Distinct
    rw [h1, h2]
    have hlt := counter_lt hc
    simp only [List.map_cons, List.nodup_cons, List.mem_cons]
    refine ⟨⟨fun hm => ?_, h.1⟩, ⟨hk, h.2.1⟩, ?_⟩
    · obtain ⟨e, he, h'⟩ := List.mem_map.mp hm
      exact absurd (h.2.2 e he) (by rw [h']; exact UInt32.lt_irrefl _)
    · rintro e (rfl | he)
      · exact hlt
      · exact UInt32.lt_trans (h.2.2 e he) hlt

theorem distinct_run (os : List Op) (d : Dev) (h : Distinct d) :
    ((d.run os).2.peers.map (·.id)).Nodup ∧ ((d.run os).2.peers.map (·.key)).Nodup := by
  induction os generalizing d with
  | nil => exact ⟨h.1, h.2.1⟩
  | cons o os ih => exact ih _ (distinct_step d o h)

theorem record_parts (sk : B32) (name : Bytes) (key : B32) {nonce : Bytes} (hn : nonce.length = 8) :
    (record sk nonce name key).take 8 = nonce ∧
      (record sk nonce name key).drop 8 = aeadEnc sk (UInt64.ofNat (leNat nonce)) name key.toList ∧
      (record sk nonce name key).length = 56 := by
  unfold record
  refine ⟨?_, ?_, ?_⟩
  · rw [← hn]; exact List.take_left
  · rw [← hn]; exact List.drop_left
  · simp [hn, enc_length]

end

theorem find?_nodup {α β : Type} [DecidableEq β] (f : α → β) {l : List α} (h : (l.map f).Nodup) {e : α} (he : e ∈ l) :
    (l.find? fun x => decide (f x = f e)) = some e := by
  induction l with
  | nil => cases he
  | cons x l ih =>
    rw [List.map_cons, List.nodup_cons] at h
    rcases List.mem_cons.mp he with rfl | he
    · simp
    · have : f x ≠ f e := fun h' => h.1 (h' ▸ List.mem_map_of_mem he)
      rw [List.find?_cons_of_neg (by simpa using this)]
      exact ih h.2 he

end Verif.Noise.Mem
