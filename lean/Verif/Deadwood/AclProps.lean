import Verif.Deadwood.AclModel
import Verif.Deadwood.Str2Props
import Mathlib.Data.List.Forall2
/-!
# C33, C34, C35: netmasks and access lists
-/

namespace Dw
namespace Acl
open DwStr Spec

/-! ## Bits -/

theorem byteBits_length (b : UInt8) : (byteBits b).length = 8 := by simp [byteBits]

theorem bits_cons (x : UInt8) (l : List UInt8) : bits (x :: l) = byteBits x ++ bits l := rfl

theorem bits_length (l : List UInt8) : (bits l).length = 8 * l.length := by
  induction l with
  | nil => rfl
  | cons x xs ih => rw [bits_cons, List.length_append, byteBits_length, ih, List.length_cons]; omega

theorem bits_append (l l' : List UInt8) : bits (l ++ l') = bits l ++ bits l' := by
  simp [bits, List.flatMap_append]

theorem byteBits_and (x m : UInt8) : byteBits (x &&& m) = List.zipWith and (byteBits x) (byteBits m) := by
  simp [byteBits]

theorem byteBits_inj {x y : UInt8} (h : byteBits x = byteBits y) : x = y := by
  apply UInt8.toBitVec_inj.1
  apply BitVec.eq_of_getLsbD_eq
  intro i hi
  simp only [byteBits, List.map_cons, List.map_nil, List.cons.injEq, and_true] at h
  obtain ⟨h7, h6, h5, h4, h3, h2, h1, h0⟩ := h
  change x.toNat.testBit i = y.toNat.testBit i
  have : i = 0 ∨ i = 1 ∨ i = 2 ∨ i = 3 ∨ i = 4 ∨ i = 5 ∨ i = 6 ∨ i = 7 := by omega
  rcases this with rfl | rfl | rfl | rfl | rfl | rfl | rfl | rfl <;> assumption

theorem bits_inj : ∀ {x y : List UInt8}, bits x = bits y → x = y
  | [], [], _ => rfl
  | [], y :: ys, h => by
    have := congrArg List.length h; simp [bits_length] at this
  | x :: xs, [], h => by
    have := congrArg List.length h; simp [bits_length] at this
  | x :: xs, y :: ys, h => by
    rw [bits_cons, bits_cons] at h
    obtain ⟨h1, h2⟩ := List.append_inj h (by simp [byteBits_length])
    rw [byteBits_inj h1, bits_inj h2]

theorem bits_zip : ∀ {x m : List UInt8}, x.length = m.length →
    bits (List.zipWith (· &&& ·) x m) = List.zipWith and (bits x) (bits m)
  | [], [], _ => rfl
  | [], y :: ys, h => by simp at h
  | x :: xs, [], h => by simp at h
  | x :: xs, m :: ms, h => by
    rw [List.zipWith_cons_cons, bits_cons, bits_cons, bits_cons, List.zipWith_append (by simp [byteBits_length]),
      byteBits_and, bits_zip (by simpa using h)]

theorem zip_true : ∀ (l : List Bool), List.zipWith and l (List.replicate l.length true) = l
  | [] => rfl
  | x :: xs => by
    rw [List.length_cons, List.replicate_succ, List.zipWith_cons_cons, zip_true xs]; simp

theorem zip_false : ∀ (l : List Bool), List.zipWith and l (List.replicate l.length false) =
    List.replicate l.length false
  | [] => rfl
  | x :: xs => by
    rw [List.length_cons, List.replicate_succ, List.zipWith_cons_cons, zip_false xs]; simp

theorem zip_mask {l : List Bool} {n k : Nat} (h : l.length = n + k) :
    List.zipWith and l (List.replicate n true ++ List.replicate k false) = l.take n ++ List.replicate k false := by
  have h1 : (l.take n).length = n := by simp; omega
  have h2 : (l.drop n).length = k := by simp; omega
  conv => lhs; rw [← List.take_append_drop n l]
  rw [List.zipWith_append (by simp; omega)]
  congr 1
  · have := zip_true (l.take n); rwa [h1] at this
  · have := zip_false (l.drop n); rwa [h2] at this

/-! ## C34: netmasks -/

theorem wr_at {pre post : List UInt8} {x b : UInt8} {i : Nat} (hi : i = pre.length) :
    wr (pre ++ x :: post) i b = .ok (pre ++ b :: post) := by
  subst hi; simp [wr]

theorem fill_at (b : UInt8) : ∀ (mid pre post : List UInt8) (n i : Nat), n = mid.length → i = pre.length →
    fill b n i (pre ++ mid ++ post) = .ok (pre ++ List.replicate n b ++ post)
  | [], pre, post, n, i, hn, hi => by subst hn; simp [fill]
  | x :: mid, pre, post, n, i, hn, hi => by
    subst hn
    simp only [List.length_cons, fill]
    rw [show pre ++ (x :: mid) ++ post = pre ++ x :: (mid ++ post) by simp, wr_at hi, Res.ok_bind]
    rw [show pre ++ b :: (mid ++ post) = (pre ++ [b]) ++ mid ++ post by simp]
    rw [fill_at b mid (pre ++ [b]) post _ _ rfl (by simp; omega)]
    simp [List.replicate_succ]

theorem last_bits {r : Nat} (h : r < 8) :
    byteBits (UInt8.ofNat (255 * 2 ^ (8 - r))) = List.replicate r true ++ List.replicate (8 - r) false := by
  have : r = 0 ∨ r = 1 ∨ r = 2 ∨ r = 3 ∨ r = 4 ∨ r = 5 ∨ r = 6 ∨ r = 7 := by omega
  rcases this with rfl | rfl | rfl | rfl | rfl | rfl | rfl | rfl <;> decide +kernel

theorem bits_ff (n : Nat) : bits (List.replicate n 255) = List.replicate (8 * n) true := by
  induction n with
  | zero => rfl
  | succ n ih =>
    rw [List.replicate_succ, bits_cons, ih, show 8 * (n + 1) = 8 + 8 * n by omega, ← List.replicate_append_replicate]
    rfl

theorem bits_zero (n : Nat) : bits (List.replicate n 0) = List.replicate (8 * n) false := by
  induction n with
  | zero => rfl
  | succ n ih =>
    rw [List.replicate_succ, bits_cons, ih, show 8 * (n + 1) = 8 + 8 * n by omega, ← List.replicate_append_replicate]
    rfl

/-- **C34.** For every address length `len` (1 to 64 bytes) and every prefix length
`n` up to `8 * len`, the mask has exactly its first `n` bits set; exactly `len` bytes
of the array are written. -/
theorem makeNetmask_exact {a : List UInt8} {len n : Nat} (h1 : 1 ≤ len) (h2 : len ≤ 64) (h3 : len ≤ a.length)
    (hn : n ≤ 8 * len) :
    ∃ k, makeNetmask n a len = .ok (k ++ a.drop len) ∧ k.length = len ∧
      bits k = List.replicate n true ++ List.replicate (8 * len - n) false := by
  have hd : ((n : Int) / 8).toNat = n / 8 := by omega
  have hr : ((n : Int) % 8).toNat = n % 8 := by omega
  unfold makeNetmask
  rw [if_neg (by omega)]
  simp only []
  rw [if_neg (by omega), hd, hr]
  have hf : fill 255 (n / 8) 0 a = .ok (List.replicate (n / 8) 255 ++ a.drop (n / 8)) := by
    have := fill_at 255 (a.take (n / 8)) [] (a.drop (n / 8)) (n / 8) 0 (by simp; omega) rfl
    simpa using this
  rw [hf, Res.ok_bind]
  by_cases he : n / 8 = len
  · rw [if_neg (by omega)]
    refine ⟨List.replicate (n / 8) 255, by rw [he], by simp [he], ?_⟩
    rw [bits_ff, show 8 * len - n = 0 by omega, show 8 * (n / 8) = n by omega]
    simp
  · have hlt : n / 8 < len := by omega
    rw [if_pos (by omega)]
    have hx : n / 8 < a.length := by omega
    rw [List.drop_eq_getElem_cons hx, wr_at (by simp), Res.ok_bind]
    have := fill_at 0 ((a.drop (n / 8 + 1)).take (len - n / 8 - 1))
      (List.replicate (n / 8) 255 ++ [UInt8.ofNat (255 * 2 ^ (8 - n % 8))]) (a.drop len) (len - n / 8 - 1) (n / 8 + 1)
      (by simp; omega) (by simp)
    have hsplit : a.drop (n / 8 + 1) = (a.drop (n / 8 + 1)).take (len - n / 8 - 1) ++ a.drop len := by
      conv => lhs; rw [← List.take_append_drop (len - n / 8 - 1) (a.drop (n / 8 + 1))]
      rw [List.drop_drop, show n / 8 + 1 + (len - n / 8 - 1) = len by omega]
    refine ⟨List.replicate (n / 8) 255 ++ [UInt8.ofNat (255 * 2 ^ (8 - n % 8))] ++ List.replicate (len - n / 8 - 1) 0,
      ?_, by simp; omega, ?_⟩
    · rw [← this]
      congr 1
      conv => lhs; rw [hsplit]
      simp
    · rw [bits_append, bits_append, bits_ff, bits_zero, bits_cons, last_bits (by omega)]
      simp only [bits, List.flatMap_nil, List.append_nil]
      rw [← List.append_assoc, List.replicate_append_replicate, List.append_assoc, List.replicate_append_replicate]
      congr 2 <;> omega

example : makeNetmask 10 (List.replicate 17 9) 4 = .ok ([255, 192, 0, 0] ++ List.replicate 13 9) := by decide +kernel

/-- C34, the other prefix lengths: nothing is written. -/
theorem makeNetmask_bad {a : List UInt8} {len : Nat} {n : Int} (h : n < 0 ∨ n ≥ 8 * len + 8) :
    makeNetmask n a len = .ok a := by
  unfold makeNetmask
  split
  · rfl
  · simp only []
    rw [if_pos (by omega)]

example : makeNetmask 40 (List.replicate 17 9) 4 = .ok (List.replicate 17 9) := by decide +kernel

/-! ## C33: matching -/

/-- A list entry: address and mask of the entry's length. -/
structure EntryIs (m : IpMask) (addr : List UInt8) (n : Nat) : Prop where
  len : m.len = addr.length
  ip : ∃ r, m.ip = addr ++ r
  mask : ∃ k r, m.mask = k ++ r ∧ k.length = addr.length ∧
    bits k = List.replicate n true ++ List.replicate (8 * addr.length - n) false

theorem maskLoop_eq (m : IpMask) (ip : List UInt8) : ∀ (x k y : List UInt8) (px pk py rx rk ry : List UInt8) (n b : Nat),
    m.ip = px ++ x ++ rx → m.mask = pk ++ k ++ rk → ip = py ++ y ++ ry →
    px.length = b → pk.length = b → py.length = b → x.length = n → k.length = n → y.length = n →
    maskLoop m ip n b = .ok (decide (List.zipWith (· &&& ·) x k = List.zipWith (· &&& ·) y k)) := by
  intro x
  induction x with
  | nil =>
    intro k y px pk py rx rk ry n b _ _ _ _ _ _ hn hk hy
    subst hn
    rw [List.length_eq_zero_iff.1 hk, List.length_eq_zero_iff.1 hy]
    simp [maskLoop]
  | cons x xs ih =>
    intro k y px pk py rx rk ry n b h1 h2 h3 h4 h5 h6 hn hk hy
    subst hn
    match k, y, hk, hy with
    | k :: ks, y :: ys, hk, hy =>
      have e1 : rd m.mask b = .ok k := by simp [rd, h2, ← h5]
      have e2 : rd m.ip b = .ok x := by simp [rd, h1, ← h4]
      have e3 : rd ip b = .ok y := by simp [rd, h3, ← h6]
      simp only [List.length_cons, maskLoop, e1, e2, e3, Res.ok_bind]
      split
      · rename_i h
        simp only [List.zipWith_cons_cons, List.cons.injEq, Res.ok.injEq]
        symm
        exact decide_eq_false (fun hh => h hh.1)
      · rename_i h
        rw [ih ks ys (px ++ [x]) (pk ++ [k]) (py ++ [y]) rx rk ry xs.length (b + 1) (by simp [h1]) (by simp [h2])
          (by simp [h3]) (by simp [h4]) (by simp [h5]) (by simp [h6]) rfl (by simpa using hk) (by simpa using hy)]
        simp only [List.zipWith_cons_cons, List.cons.injEq, Decidable.not_not.1 h, true_and]

theorem maskLoop_has {m : IpMask} {addr : List UInt8} {n : Nat} (h : EntryIs m addr n) (hn : n ≤ 8 * addr.length)
    {ip r : List UInt8} (hip : ip.length = m.len) :
    maskLoop m (ip ++ r) ip.length 0 = .ok (decide ((Network.mk addr n).Has ip)) := by
  obtain ⟨rx, hx⟩ := h.ip
  obtain ⟨k, rk, hk, hkl, hkb⟩ := h.mask
  have hl : ip.length = addr.length := by rw [hip, h.len]
  rw [maskLoop_eq m (ip ++ r) addr k ip [] [] [] rx rk r ip.length 0 (by simpa using hx) (by simpa using hk) (by simp)
    rfl rfl rfl (by omega) (by omega) rfl]
  congr 1
  apply decide_eq_decide.2
  simp only [Network.Has]
  rw [← bits_inj_iff, bits_zip (by omega), bits_zip (by omega), hkb, zip_mask (by rw [bits_length]; omega),
    zip_mask (by rw [bits_length]; omega)]
  constructor
  · intro h
    exact ⟨hl, (List.append_cancel_right h).symm⟩
  · rintro ⟨-, h⟩
    rw [h]
where
  bits_inj_iff {x y : List UInt8} : bits x = bits y ↔ x = y := ⟨bits_inj, fun h => h ▸ rfl⟩

/-- **C33.** For every list whose entries are an address and a mask, a client is
admitted exactly when its address belongs to one of the networks. -/
theorem checkIpAcl_exact {acl : List IpMask} {nets : List Network}
    (h : List.Forall₂ (fun m (w : Network) => EntryIs m w.addr w.pre ∧ w.pre ≤ 8 * w.addr.length ∧ w.addr ≠ []) acl nets)
    (ip r : List UInt8) :
    ∃ b, checkIpAcl acl ip.length (ip ++ r) = .ok b ∧ (b = true ↔ ∃ w ∈ nets, w.Has ip) := by
  induction h with
  | nil => exact ⟨false, rfl, by simp⟩
  | @cons m w acl nets hm _ ih =>
    obtain ⟨hm, hw, hne⟩ := hm
    obtain ⟨b, hb1, hb2⟩ := ih
    have hml : m.len ≠ 0 := by
      rw [hm.len]; exact fun h => hne (List.length_eq_zero_iff.1 h)
    unfold checkIpAcl
    rw [if_neg hml]
    by_cases hl : ip.length = m.len
    · rw [if_neg (by simpa using hl), maskLoop_has hm hw hl, Res.ok_bind]
      by_cases hh : w.Has ip
      · rw [if_pos (by simpa using hh)]
        exact ⟨true, rfl, by simpa using Or.inl hh⟩
      · rw [if_neg (by simpa using hh)]
        refine ⟨b, hb1, ?_⟩
        rw [hb2]
        simp [hh]
    · rw [if_pos hl]
      refine ⟨b, hb1, ?_⟩
      rw [hb2]
      have : ¬ w.Has ip := fun h => hl (by rw [h.1, hm.len])
      simp [this]

end Acl
end Dw
