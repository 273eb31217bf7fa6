import Verif.Model.Oprf
import Verif.Spec.Oprf

/-!
# Lemmas about the OPRF model
-/

set_option linter.unusedSectionVars false

namespace Verif.Oprf

open Ristretto

variable (G : Type) [Ristretto G] [Hashes]

/-- SHA-512 as a function on byte strings, as the specification wants it. -/
def sha (b : Bytes) : Bytes := (Hashes.sha512 b).toList

theorem i2osp_one (n : ℕ) (h : n < 256) : Spec.i2osp n 1 = [UInt8.ofNat n] := by
  simp [Spec.i2osp, List.range_succ, Nat.mod_eq_of_lt h]

theorem i2osp_two (n : ℕ) : Spec.i2osp n 2 = beBytes 2 n := by
  simp [Spec.i2osp, List.range_succ, beBytes, leBytes]

theorem i2osp_zero (k : ℕ) : Spec.i2osp 0 k = List.replicate k 0 := by
  simp [Spec.i2osp, List.map_const']

theorem finalizeDst_eq : "Finalize".toList.map (fun c => UInt8.ofNat c.toNat) = finalizeDst := by decide

theorem hashToGroupDst_eq : Spec.hashToGroupDst = hashToGroupDst := by decide

theorem expandLoop_toList (b0 bi : B64) (i : ℕ) (hi : i < 256) (d : Bytes) :
    (expandLoop b0 bi (UInt8.ofNat i) d).toList =
      sha (Spec.strxor b0.toList bi.toList ++ Spec.i2osp i 1 ++ d) := by
  rw [i2osp_one i hi]
  simp [expandLoop, sha, Spec.strxor]

/-- One `memcpy` of the output loop: the buffer holds the prefix `Bs` (cut at `len`) followed by old content. -/
theorem putBlock_eq (out0 Bs : Bytes) (b : B64) (len : ℕ) (h : len ≤ out0.length) :
    putBlock (Bs.take len ++ out0.drop (min len Bs.length)) (min len Bs.length) (len - min len Bs.length) b =
      .ok ((Bs ++ b.toList).take len ++ out0.drop (min len (Bs ++ b.toList).length)) := by
  have hb : b.toList.length = 64 := by simp
  have hclen : (if len - min len Bs.length > 64 then 64 else len - min len Bs.length) =
      min 64 (len - min len Bs.length) := by split <;> omega
  unfold putBlock
  rw [hclen, wr_ok (by simp [hb]; omega)]
  congr 1
  by_cases hle : len ≤ Bs.length
  · have h1 : min len Bs.length = len := by omega
    have h2 : min len (Bs ++ b.toList).length = len := by simp; omega
    rw [h1, h2, List.take_append_of_le_length hle]
    simp [hle]
  · have hle' : Bs.length < len := by omega
    have h1 : min len Bs.length = Bs.length := by omega
    rw [h1, List.take_of_length_le (l := Bs) (by omega)]
    have h3 : List.take Bs.length (Bs ++ List.drop Bs.length out0) = Bs := by simp
    rw [h3, List.append_assoc, List.take_append, List.take_of_length_le (l := Bs) (by omega), List.append_assoc]
    congr 1
    have h4 : List.take (min 64 (len - Bs.length)) b.toList = List.take (len - Bs.length) b.toList := by
      rw [← List.take_take, List.take_of_length_le (i := 64)]
      simp
    rw [h4]
    congr 1
    rw [List.drop_append, List.drop_of_length_le (l := Bs) (by omega), List.nil_append, List.drop_drop]
    congr 1
    simp [hb]; omega

theorem flatMap_take_of_ge (f : ℕ → Bytes) (hf : ∀ i, (f i).length = 64) (len m : ℕ) (hm : (len + 63) / 64 ≤ m) :
    ((List.range m).flatMap f).take len = ((List.range ((len + 63) / 64)).flatMap f).take len := by
  have hl : ∀ k, ((List.range k).flatMap f).length = 64 * k := by
    intro k; induction k with
    | zero => simp
    | succ k ih => rw [List.range_succ, List.flatMap_append, List.length_append, ih]; simp [hf]; ring
  obtain ⟨d, rfl⟩ := Nat.exists_eq_add_of_le hm
  rw [List.range_add, List.flatMap_append, List.take_append_of_le_length]
  rw [hl]; omega

theorem xmdBlock_length (msg dst : Bytes) (len i : ℕ) : (Spec.xmdBlock sha msg dst len i).length = 64 := by
  match i with
  | 0 => simp [Spec.xmdBlock, sha]
  | 1 => simp [Spec.xmdBlock, sha]
  | i + 2 => simp [Spec.xmdBlock, sha]

theorem flatMap_length (msg dst : Bytes) (len : ℕ) (k : ℕ) :
    ((List.range k).flatMap fun i => Spec.xmdBlock sha msg dst len (i + 1)).length = 64 * k := by
  induction k with
  | zero => simp
  | succ k ih =>
    rw [List.range_succ, List.flatMap_append, List.length_append, ih]; simp [xmdBlock_length]; ring

/-- The output loop writes all remaining blocks. -/
theorem xmdLoop_eq (msg dst : Bytes) (len : ℕ) (hlen : len < 256) (out0 : Bytes)
    (ho : len ≤ out0.length) (b0 : B64) (hb0 : b0.toList = Spec.xmdBlock sha msg dst len 0) :
    ∀ (fuel i : ℕ) (bi : B64), 6 < 2 * fuel + i → i ≤ 6 → bi.toList = Spec.xmdBlock sha msg dst len (i + 1) →
      let Bs := (List.range (i + 1)).flatMap fun i => Spec.xmdBlock sha msg dst len (i + 1)
      xmdLoop b0 (Spec.dstPrime dst) ((len + 63) / 64) fuel (i + 2) bi (Bs.take len ++ out0.drop (min len Bs.length))
        (min len Bs.length) (len - min len Bs.length) =
      .ok (Spec.expandMessageXmd sha msg dst len ++ out0.drop len) := by
  intro fuel
  induction fuel with
  | zero =>
    intro i bi hf hi _
    exfalso
    omega
  | succ f ih =>
    intro i bi hf hi hbi Bs
    unfold xmdLoop
    by_cases hle : i + 2 ≤ (len + 63) / 64
    · have hi' : i ≤ 2 := by omega
      rw [if_pos hle]
      have hx1 : (expandLoop b0 bi (UInt8.ofNat (i + 2)) (Spec.dstPrime dst)).toList =
          Spec.xmdBlock sha msg dst len (i + 2) := by
        rw [expandLoop_toList _ _ _ (by omega), hb0, hbi]; rfl
      have hx2 : (expandLoop b0 (expandLoop b0 bi (UInt8.ofNat (i + 2)) (Spec.dstPrime dst))
          (UInt8.ofNat (i + 2 + 1)) (Spec.dstPrime dst)).toList = Spec.xmdBlock sha msg dst len (i + 3) := by
        rw [expandLoop_toList _ _ _ (by omega), hb0, hx1]; rfl
      have hBs : Bs.length = 64 * (i + 1) := flatMap_length _ _ _ _
      have hB1 : Bs ++ (expandLoop b0 bi (UInt8.ofNat (i + 2)) (Spec.dstPrime dst)).toList =
          (List.range (i + 2)).flatMap fun i => Spec.xmdBlock sha msg dst len (i + 1) := by
        rw [hx1, List.range_succ (n := i + 1), List.flatMap_append]; simp [Bs]
      have hB2 : ((List.range (i + 2)).flatMap fun i => Spec.xmdBlock sha msg dst len (i + 1)) ++
          (expandLoop b0 (expandLoop b0 bi (UInt8.ofNat (i + 2)) (Spec.dstPrime dst))
          (UInt8.ofNat (i + 2 + 1)) (Spec.dstPrime dst)).toList =
          (List.range (i + 3)).flatMap fun i => Spec.xmdBlock sha msg dst len (i + 1) := by
        rw [hx2, List.range_succ (n := i + 2), List.flatMap_append]; simp
      have e1 := flatMap_length msg dst len (i + 2)
      have e2 := flatMap_length msg dst len (i + 3)
      simp only [putBlock_eq out0 Bs _ len ho, C.ok_bind]
      rw [hB1]
      have o1 : min len Bs.length + (if len - min len Bs.length > 64 then 64 else len - min len Bs.length) =
          min len ((List.range (i + 2)).flatMap fun i => Spec.xmdBlock sha msg dst len (i + 1)).length := by
        rw [e1, hBs]; split <;> omega
      have o2 : len - min len Bs.length - (if len - min len Bs.length > 64 then 64 else len - min len Bs.length) =
          len - min len ((List.range (i + 2)).flatMap fun i => Spec.xmdBlock sha msg dst len (i + 1)).length := by
        rw [e1, hBs]; split <;> omega
      rw [o1, o2]
      simp only [putBlock_eq out0 _ _ len ho, C.ok_bind]
      rw [hB2]
      have o3 : min len ((List.range (i + 2)).flatMap fun i => Spec.xmdBlock sha msg dst len (i + 1)).length +
          (if len - min len ((List.range (i + 2)).flatMap fun i => Spec.xmdBlock sha msg dst len (i + 1)).length > 64
            then 64 else len -
            min len ((List.range (i + 2)).flatMap fun i => Spec.xmdBlock sha msg dst len (i + 1)).length) =
          min len ((List.range (i + 3)).flatMap fun i => Spec.xmdBlock sha msg dst len (i + 1)).length := by
        rw [e1, e2]; split <;> omega
      have o4 : len - min len ((List.range (i + 2)).flatMap fun i => Spec.xmdBlock sha msg dst len (i + 1)).length -
          (if len - min len ((List.range (i + 2)).flatMap fun i => Spec.xmdBlock sha msg dst len (i + 1)).length > 64
            then 64 else len -
            min len ((List.range (i + 2)).flatMap fun i => Spec.xmdBlock sha msg dst len (i + 1)).length) =
          len - min len ((List.range (i + 3)).flatMap fun i => Spec.xmdBlock sha msg dst len (i + 1)).length := by
        rw [e1, e2]; split <;> omega
      rw [o3, o4]
      exact ih (i + 2) _ (by omega) (by omega) hx2
    · rw [if_neg hle]
      have hBs : Bs.length = 64 * (i + 1) := flatMap_length _ _ _ _
      have hm : min len Bs.length = len := by omega
      rw [hm]
      congr 2
      exact flatMap_take_of_ge _ (fun i => xmdBlock_length _ _ _ _) len (i + 1) (by omega)

theorem dstPrime_eq (dst : Bytes) (dl : UInt8) (h : dst.length = dl.toNat) :
    Spec.dstPrime dst = dst ++ [dl] := by
  rw [Spec.dstPrime, i2osp_one _ (by have := dl.toNat_lt; omega), h, UInt8.ofNat_toNat]

/-- `expand_message_xmd` on valid pointers: RFC 9380 output in the first `len` bytes, the rest untouched. -/
theorem expandMessageXmd_ok (msg dst out0 : Bytes) (ml dl len : UInt8) (hm : ml.toNat ≤ msg.length)
    (hd : dl.toNat ≤ dst.length) (hdl : dl ≠ 255) (ho : len.toNat ≤ out0.length) :
    expandMessageXmd msg ml dst dl len out0 =
      .ok (0, Spec.expandMessageXmd sha (msg.take ml.toNat) (dst.take dl.toNat) len.toNat ++ out0.drop len.toNat) := by
  have hlen := len.toNat_lt
  have hdl' : dl.toNat < 255 := by
    have := dl.toNat_lt
    have : dl.toNat ≠ 255 := fun h => hdl (UInt8.toNat_inj.1 (by simpa using h))
    omega
  have hm' : (msg.take ml.toNat).length = ml.toNat := by simp [hm]
  have hd' : (dst.take dl.toNat).length = dl.toNat := by simp [hd]
  unfold expandMessageXmd
  have hell : (len.toNat + 64 - 1) / 64 = (len.toNat + 63) / 64 := by omega
  simp only [hell]
  rw [if_neg (by omega), if_neg hdl]
  simp only [rd_ok (buf := dst) (off := 0) (n := dl.toNat) (by omega), rd_ok (buf := msg) (off := 0) (n := ml.toNat)
    (by omega), List.drop_zero, C.ok_bind]
  rw [← dstPrime_eq (dst.take dl.toNat) dl hd']
  set m := msg.take ml.toNat
  set d := dst.take dl.toNat
  set b0 := Hashes.sha512 (List.replicate 128 0 ++ m ++ beBytes 2 len.toNat ++ [0] ++ Spec.dstPrime d) with hb0
  have hb0' : b0.toList = Spec.xmdBlock sha m d len.toNat 0 := by
    simp only [Spec.xmdBlock, Spec.msgPrime, i2osp_two, i2osp_zero, sha, hb0]
    rfl
  have hb1 : (Hashes.sha512 (b0.toList ++ [1] ++ Spec.dstPrime d)).toList = Spec.xmdBlock sha m d len.toNat 1 := by
    simp only [Spec.xmdBlock, sha, i2osp_one 1 (by norm_num), hb0']
    rfl
  have h1 := putBlock_eq out0 [] (Hashes.sha512 (b0.toList ++ [1] ++ Spec.dstPrime d)) len.toNat ho
  simp only [List.take_nil, List.length_nil, Nat.min_zero, List.drop_zero, List.nil_append, Nat.sub_zero] at h1
  rw [h1, C.ok_bind]
  have h2 := xmdLoop_eq m d len.toNat (by omega) out0 ho b0 hb0' 128 0 _ (by omega) (by omega) hb1
  simp only [zero_add, List.range_one, List.flatMap_cons, List.flatMap_nil, List.append_nil, ← hb1] at h2
  have o1 : (if len.toNat > 64 then 64 else len.toNat) =
      min len.toNat (Hashes.sha512 (b0.toList ++ [1] ++ Spec.dstPrime d)).toList.length := by
    simp; split <;> omega
  rw [o1, h2]
  rfl

theorem spec_xmd_length (msg dst : Bytes) (len : ℕ) : (Spec.expandMessageXmd sha msg dst len).length = len := by
  simp only [Spec.expandMessageXmd, List.length_take, flatMap_length]
  omega

theorem hashToGroup_ok (msg : Bytes) (ml : UInt8) (hm : ml.toNat ≤ msg.length) (p0 : B32) :
    hashToGroup G true msg ml p0 = .ok (0, enc (Spec.hashToGroup G sha (msg.take ml.toNat))) := by
  unfold hashToGroup
  have h := expandMessageXmd_ok msg hashToGroupDst (List.replicate 64 0) ml (UInt8.ofNat hashToGroupDst.length) 64 hm
    (by decide) (by decide) (by decide)
  rw [if_neg (by simp), h]
  have e1 : hashToGroupDst.take (UInt8.ofNat hashToGroupDst.length).toNat = hashToGroupDst := by decide
  have e2 : (List.replicate 64 (0 : UInt8)).drop (64 : UInt8).toNat = [] := by decide
  rw [e1, e2, List.append_nil]
  simp only [C.ok_bind, ne_eq, not_true_eq_false, if_false, Spec.hashToGroup, hashToGroupDst_eq]
  rfl

end Verif.Oprf
