import Verif.Deadwood.BlockModel
import Verif.Deadwood.HalfSipProps
import Verif.Spec.BlockFile
/-!
# Block hash files answer membership exactly: the reader
-/

namespace Dw
namespace BH
open Spec

theorem rd_at {file : List UInt8} {o : Nat} {l : List UInt8} (junk : List UInt8) (h : At file o l) {i : Nat}
    (hi : i < l.length) : rd (file ++ junk) (o + i) = .ok l[i] := by
  have h1 : l[i]? = file[o + i]? := by
    conv => lhs; rw [← h]
    rw [List.getElem?_take, if_pos hi, List.getElem?_drop]
  rw [List.getElem?_eq_getElem hi] at h1
  have h2 : o + i < file.length := (List.getElem?_eq_some_iff.1 h1.symm).1
  rw [rd, List.getElem?_append_left h2, ← h1]

theorem at_le {file : List UInt8} {o : Nat} {l : List UInt8} (h : At file o l) (hl : l ≠ []) :
    o + l.length ≤ file.length := by
  have := congrArg List.length h
  rw [List.length_take, List.length_drop] at this
  have : 0 < l.length := List.length_pos_iff.2 hl
  omega

theorem at_append {file : List UInt8} {o : Nat} {l m : List UInt8} (h : At file o (l ++ m)) :
    At file o l ∧ At file (o + l.length) m := by
  unfold At at *
  rw [List.length_append, List.take_add] at h
  have h1 := List.append_inj h (by
    rw [List.length_take, List.length_drop]
    have := congrArg List.length h
    simp only [List.length_append, List.length_take, List.length_drop] at this
    omega)
  rw [List.drop_drop] at h1
  exact h1

theorem be32_length (n : Nat) : (be32 n).length = 4 := rfl

theorem be32_val (n : Nat) (h : n < 4294967296) :
    ((be32 n)[0]'(by rw [be32_length]; omega)).toNat * 16777216 + ((be32 n)[1]'(by rw [be32_length]; omega)).toNat * 65536 +
      ((be32 n)[2]'(by rw [be32_length]; omega)).toNat * 256 + ((be32 n)[3]'(by rw [be32_length]; omega)).toNat = n := by
  simp only [be32, be16, List.cons_append, List.nil_append, List.getElem_cons_zero, List.getElem_cons_succ,
    UInt8.toNat_ofNat']
  omega

theorem read32_at {file : List UInt8} {o n : Nat} (junk : List UInt8) (h : At file o (be32 n))
    (hn : n < 4294967296) (hm : file.length < 2147483648) :
    read32 (file ++ junk) o file.length = .ok n := by
  have hle := at_le h (by simp [be32, be16])
  rw [be32_length] at hle
  rw [read32, if_neg (by omega), show rd (file ++ junk) o = _ from rd_at junk h (i := 0) (by rw [be32_length]; omega),
    rd_at junk h (i := 1) (by rw [be32_length]; omega), rd_at junk h (i := 2) (by rw [be32_length]; omega), rd_at junk h (i := 3) (by rw [be32_length]; omega)]
  simp only [Res.ok_bind, be32_val n hn]

/-- A block file is loaded with its key and its number of buckets. -/
theorem load_exact {file : List UInt8} {k1 k2 : UInt32} {chains : List (List (List UInt8))} (junk : List UInt8)
    (h : BlockFile file k1 k2 chains) (hm : file.length < 2147483648) :
    load file junk = .ok ⟨file ++ junk, file.length, k1, k2, chains.length⟩ := by
  have h12 := at_le h.count (by simp [be32, be16])
  rw [be32_length] at h12
  have hc : chains.length ≤ file.length := by
    rcases Nat.eq_zero_or_pos chains.length with h0 | h0
    · omega
    · by_cases he : chains[chains.length - 1] = []
      · have := at_le (h.empty _ _ he) (by simp [be32, be16])
        rw [be32_length] at this; omega
      · obtain ⟨off, -, -, h1, -⟩ := h.full _ _ he
        have := at_le h1 (by simp [be32, be16])
        rw [be32_length] at this; omega
  rw [load]
  simp only
  rw [if_neg (by omega), show rd (file ++ junk) 0 = _ from rd_at junk h.magic (i := 0) (by decide),
    show rd (file ++ junk) 1 = _ from rd_at junk h.magic (i := 1) (by decide),
    show rd (file ++ junk) 2 = _ from rd_at junk h.magic (i := 2) (by decide),
    show rd (file ++ junk) 3 = _ from rd_at junk h.magic (i := 3) (by decide),
    read32_at junk h.key1 (by have := k1.toNat_lt; omega) hm, read32_at junk h.key2 (by have := k2.toNat_lt; omega) hm,
    read32_at junk h.count (by omega) hm]
  simp [hc]

theorem same_exact {block str : List UInt8} {s : List UInt8} {o : Nat} (junk : List UInt8) (t : List UInt8) (so : Nat)
    (h : At block o s) (ht : At str so t) (hl : s.length = t.length) :
    same (block ++ junk) str s.length o so = .ok (decide (s = t)) := by
  induction s generalizing t o so with
  | nil =>
    have : t = [] := by simpa using hl.symm
    subst this; rfl
  | cons x s ih =>
    match t, hl with
    | y :: t, hl =>
      have h1 := rd_at junk h (i := 0) (by simp)
      have h2 := rd_at [] ht (i := 0) (by simp)
      rw [List.append_nil] at h2
      simp only [Nat.add_zero, List.getElem_cons_zero] at h1 h2
      rw [List.length_cons, same, h1, h2]
      simp only [Res.ok_bind]
      by_cases hxy : x = y
      · subst hxy
        have h3 := (at_append (l := [x]) (m := s) h).2
        have h4 := (at_append (l := [x]) (m := t) ht).2
        simp only [ne_eq, not_true_eq_false, if_false, List.cons.injEq, true_and]
        exact ih t (so + 1) h3 h4 (by simpa using hl)
      · simp [hxy]

theorem at_take (str : List UInt8) (len : Nat) : At str 0 (str.take len) := by
  unfold At
  rw [List.drop_zero, List.length_take]
  by_cases h : len ≤ str.length
  · rw [Nat.min_eq_left h]
  · rw [Nat.min_eq_right (by omega), List.take_length, List.take_of_length_le (by omega)]

theorem chain_exact {file : List UInt8} {k1 k2 : UInt32} {hs : Nat} (junk str : List UInt8) (len : Nat)
    (hlen : len ≤ str.length) (c : List (List UInt8)) (n o : Nat) (h : At file o (encChain c))
    (hc : ∀ s ∈ c, s.length < 0xff00) (hn : c.length < n) :
    chain ⟨file ++ junk, file.length, k1, k2, hs⟩ str len n o =
      .ok (if str.take len ∈ c then 1 else 0) := by
  induction c generalizing n o with
  | nil =>
    obtain ⟨n, rfl⟩ : ∃ m, n = m + 1 := ⟨n - 1, by simp at hn; omega⟩
    have hle := at_le h (by simp [encChain])
    have h0 := rd_at junk h (i := 0) (by simp [encChain])
    simp only [encChain, List.flatMap_nil, List.nil_append, List.length_singleton] at hle
    simp only [encChain, List.flatMap_nil, List.nil_append, Nat.add_zero, List.getElem_cons_zero] at h0
    rw [chain, if_pos (by simp only; omega), h0]
    simp
  | cons s c ih =>
    obtain ⟨n, rfl⟩ : ∃ m, n = m + 1 := ⟨n - 1, by simp at hn; omega⟩
    have hs := hc s (by simp)
    have he : encChain (s :: c) = be16 s.length ++ (s ++ encChain c) := by
      simp [encChain, encEntry]
    rw [he] at h
    obtain ⟨ha, hb⟩ := at_append h
    obtain ⟨hb, hd⟩ := at_append hb
    have hle := at_le hd (by simp [encChain])
    have hl1 : 1 ≤ (encChain c).length := by simp [encChain]
    have r0 := rd_at junk ha (i := 0) (by simp [be16])
    have r1 := rd_at junk ha (i := 1) (by simp [be16])
    rw [Nat.add_zero] at r0
    simp only [be16] at r0 r1 hb hd hle
    simp only [List.getElem_cons_zero, List.getElem_cons_succ, List.length_cons, List.length_nil, Nat.zero_add,
      Nat.reduceAdd] at r0 r1 hb hd hle
    have e0 : (UInt8.ofNat (s.length / 256)).toNat = s.length / 256 := by
      rw [UInt8.toNat_ofNat']; omega
    have e1 : (UInt8.ofNat s.length).toNat = s.length % 256 := by
      rw [UInt8.toNat_ofNat']
    have ee : s.length / 256 * 256 + s.length % 256 = s.length := by omega
    have ihh := ih n (o + 2 + s.length) hd (fun x hx => hc x (by simp [hx])) (by simp at hn; omega)
    rw [chain, if_pos (by simp only; omega), r0]
    simp only [Res.ok_bind, e0]
    rw [if_neg (by omega), if_neg (by omega), r1]
    simp only [Res.ok_bind, e1, ee]
    rw [if_neg (by omega), if_neg (by omega)]
    have hts : (str.take len).length = len := by rw [List.length_take]; omega
    by_cases hsl : s.length = len
    · rw [if_neg (by omega), same_exact junk (str.take len) 0 hb (at_take str len) (by omega)]
      simp only [Res.ok_bind]
      by_cases hst : s = str.take len
      · simp [hst]
      · rw [if_neg (by simpa using hst)]
        rw [show o + 1 + 1 + s.length = o + 2 + s.length by omega, ihh]
        simp [Ne.symm hst]
    · rw [if_pos hsl, show o + 1 + 1 + s.length = o + 2 + s.length by omega, ihh]
      have : str.take len ≠ s := fun h => hsl (by rw [← h]; exact hts)
      simp [this]

theorem length_le_flatMap (c : List (List UInt8)) : c.length ≤ (c.flatMap encEntry).length := by
  induction c with
  | nil => simp
  | cons s c ih =>
    rw [List.flatMap_cons, List.length_append, List.length_cons, encEntry, List.length_append]
    simp only [be16, List.length_cons]
    omega

/-- Looking up a string in a block file: 1 if it is one of the strings of the file, 0 if
it is not.  Never an error, nothing outside the file and the string is read. -/
theorem hasString_exact {file : List UInt8} {k1 k2 : UInt32} {chains : List (List (List UInt8))}
    (junk str : List UInt8) (len : Nat) (h : BlockFile file k1 k2 chains) (hp : Placed k1 k2 chains)
    (hm : file.length < 2147483648) (hc : chains ≠ []) (hs : ∀ s ∈ chains.flatten, s.length < 0xff00)
    (hlen : len ≤ str.length) (hl : len ≤ 0xff00) :
    (load file junk).bind (fun b => hasString b str len) =
      .ok (if str.take len ∈ chains.flatten then 1 else 0) := by
  rw [load_exact junk h hm]
  have h0 : 0 < chains.length := List.length_pos_iff.2 hc
  show hasString _ str len = _
  rw [hasString, if_neg (by omega), HS.halfSip13_exact _ _ _ _ hlen]
  simp only [Res.ok_bind]
  rw [if_neg (by omega)]
  generalize hi : (HalfSip.hash k1 k2 (str.take len)).toNat % chains.length = i
  have hil : i < chains.length := by subst hi; exact Nat.mod_lt _ h0
  have hmem : str.take len ∈ chains.flatten ↔ str.take len ∈ chains[i] := by
    rw [List.mem_flatten]
    constructor
    · rintro ⟨c, hc1, hc2⟩
      obtain ⟨j, hj, rfl⟩ := List.getElem_of_mem hc1
      have := hp j hj _ hc2
      rw [hi] at this
      subst this
      exact hc2
    · intro hx; exact ⟨_, List.getElem_mem hil, hx⟩
  by_cases he : chains[i] = []
  · have ha := h.empty i hil he
    have := at_le ha (by simp [be32, be16])
    rw [Nat.mod_eq_of_lt (by omega), read32_at junk ha (by omega) hm]
    rw [he] at hmem
    simp [hmem]
  · obtain ⟨off, ho1, ho2, ha, hb⟩ := h.full i hil he
    have := at_le ha (by simp [be32, be16])
    have hbl := at_le hb (by simp [encChain])
    have hcl := length_le_flatMap chains[i]
    have h2 : 1 < (encChain chains[i]).length := by
      rw [encChain, List.length_append, List.length_singleton]
      have : 0 < chains[i].length := List.length_pos_iff.2 he
      omega
    have h3 : chains[i].length < (encChain chains[i]).length := by
      rw [encChain, List.length_append, List.length_singleton]; omega
    rw [Nat.mod_eq_of_lt (by omega), read32_at junk ha (by omega) hm]
    simp only [Res.ok_bind]
    rw [if_neg (by omega), if_neg (by omega), chain_exact junk str len hlen chains[i] _ off hb _ (by omega)]
    · simp only [hmem]
    · intro s hx
      exact hs s (List.mem_flatten.2 ⟨_, List.getElem_mem hil, hx⟩)

/-- A file without buckets, as the tool makes it from an empty list, is accepted, but then
every lookup divides by zero. -/
theorem empty_file_lookup_is_ub (k1 k2 : UInt32) (junk str : List UInt8) (len : Nat) (hlen : len ≤ str.length)
    (hl : len ≤ 0xff00) :
    (load ([0, 68, 119, 66] ++ be32 k1.toNat ++ be32 k2.toNat ++ be32 0) junk).bind
      (fun b => hasString b str len) = .ub := by
  have h : BlockFile ([0, 68, 119, 66] ++ be32 k1.toNat ++ be32 k2.toNat ++ be32 0) k1 k2 [] :=
    ⟨rfl, rfl, rfl, rfl, fun i h => absurd h (by simp), fun i h => absurd h (by simp)⟩
  rw [load_exact junk h (by simp [be32, be16])]
  show hasString _ str len = _
  rw [hasString, if_neg (by omega), HS.halfSip13_exact _ _ _ _ hlen]
  simp

theorem same_safe (b str : List UInt8) (n o so : Nat) (h1 : o + n ≤ b.length) (h2 : so + n ≤ str.length) :
    ∃ r, same b str n o so = .ok r := by
  induction n generalizing o so with
  | zero => exact ⟨_, rfl⟩
  | succ n ih =>
    rw [same, rd, List.getElem?_eq_getElem (by omega), rd, List.getElem?_eq_getElem (by omega)]
    simp only [Res.ok_bind]
    split
    · exact ⟨_, rfl⟩
    · exact ih _ _ (by omega) (by omega)

theorem chain_safe (b : Blk) (str : List UInt8) (len n o : Nat) (hb : b.max ≤ b.block.length)
    (hlen : len ≤ str.length) : ∃ r, chain b str len n o = .ok r ∧ (r = -1 ∨ r = 0 ∨ r = 1) := by
  induction n generalizing o with
  | zero => exact ⟨_, rfl, by simp⟩
  | succ n ih =>
    rw [chain]
    by_cases h : o < b.max
    · rw [if_pos h, rd, List.getElem?_eq_getElem (by omega)]
      simp only [Res.ok_bind]
      split
      · exact ⟨_, rfl, by simp⟩
      · split
        · exact ⟨_, rfl, by simp⟩
        · rw [rd, List.getElem?_eq_getElem (by omega)]
          simp only [Res.ok_bind]
          split
          · exact ⟨_, rfl, by simp⟩
          · split
            · exact ⟨_, rfl, by simp⟩
            · split
              · exact ih _
              · obtain ⟨r, hr⟩ := same_safe b.block str
                  (b.block[o].toNat * 256 + b.block[o + 1].toNat) (o + 1 + 1) 0 (by omega) (by omega)
                rw [hr]
                simp only [Res.ok_bind]
                split
                · exact ⟨_, rfl, by simp⟩
                · exact ih _
    · rw [if_neg h]; exact ⟨_, rfl, by simp⟩

theorem read32_safe (b : List UInt8) (o max : Nat) (hb : max ≤ b.length) (ho : o + 3 < 4294967296) :
    ∃ r, read32 b o max = .ok r := by
  rw [read32]
  split
  · exact ⟨_, rfl⟩
  · simp only [rd]
    rw [List.getElem?_eq_getElem (by omega), List.getElem?_eq_getElem (by omega),
      List.getElem?_eq_getElem (by omega), List.getElem?_eq_getElem (by omega)]
    exact ⟨_, rfl⟩

theorem load_inv {file junk : List UInt8} {b : Blk} (h : load file junk = .ok b) :
    b.block = file ++ junk ∧ b.max = file.length ∧ b.hashSize ≤ file.length := by
  rw [load] at h
  simp only at h
  split at h
  · simp at h
  · next hl =>
    simp only [rd] at h
    rw [List.getElem?_eq_getElem (by simp; omega), List.getElem?_eq_getElem (by simp; omega),
      List.getElem?_eq_getElem (by simp; omega), List.getElem?_eq_getElem (by simp; omega)] at h
    simp only [Res.ok_bind] at h
    split at h
    · simp at h
    · obtain ⟨r1, h1⟩ := read32_safe (file ++ junk) 4 file.length (by simp) (by omega)
      obtain ⟨r2, h2⟩ := read32_safe (file ++ junk) 8 file.length (by simp) (by omega)
      obtain ⟨r3, h3⟩ := read32_safe (file ++ junk) 12 file.length (by simp) (by omega)
      rw [h1, h2, h3] at h
      simp only [Res.ok_bind] at h
      split at h
      · simp at h
      · injection h with h
        subst h
        exact ⟨rfl, rfl, by simp only; omega⟩

/-- Whatever the file contains, loading never reads outside it. -/
theorem load_safe (file junk : List UInt8) : load file junk ≠ .ub := by
  rw [load]
  simp only
  split
  · simp
  · next hl =>
    simp only [rd]
    rw [List.getElem?_eq_getElem (by simp; omega), List.getElem?_eq_getElem (by simp; omega),
      List.getElem?_eq_getElem (by simp; omega), List.getElem?_eq_getElem (by simp; omega)]
    simp only [Res.ok_bind]
    split
    · simp
    · obtain ⟨r1, h1⟩ := read32_safe (file ++ junk) 4 file.length (by simp) (by omega)
      obtain ⟨r2, h2⟩ := read32_safe (file ++ junk) 8 file.length (by simp) (by omega)
      obtain ⟨r3, h3⟩ := read32_safe (file ++ junk) 12 file.length (by simp) (by omega)
      rw [h1, h2, h3]
      simp only [Res.ok_bind]
      split <;> simp

/-- Whatever the file contains, if it has a bucket, no lookup reads outside the file or
the string, and the answer is -1, 0 or 1. -/
theorem hasString_safe (file junk str : List UInt8) (len : Nat) (hlen : len ≤ str.length)
    (b : Blk) (hb : load file junk = .ok b) (hz : b.hashSize ≠ 0) :
    ∃ r, hasString b str len = .ok r ∧ (r = -1 ∨ r = 0 ∨ r = 1) := by
  obtain ⟨h1, h2, -⟩ := load_inv hb
  rw [hasString]
  split
  · exact ⟨_, rfl, by simp⟩
  · rw [HS.halfSip13_exact _ _ _ _ hlen]
    simp only [Res.ok_bind]
    obtain ⟨r, hr⟩ := read32_safe b.block
      ((16 + 4 * ((HalfSip.hash b.k1 b.k2 (str.take len)).toNat % b.hashSize)) % 4294967296) b.max
      (by rw [h1, h2]; simp) (by omega)
    rw [hr]
    simp only [Res.ok_bind]
    split
    · exact ⟨_, rfl, by simp⟩
    · split
      · exact ⟨_, rfl, by simp⟩
      · exact chain_safe _ _ _ _ _ (by rw [h1, h2]; simp) hlen

end BH
end Dw
