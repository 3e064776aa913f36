import Verif.Deadwood.BlockMakeModel
import Verif.Deadwood.BlockProps
import Verif.Spec.Wire
/-!
# Block hash files answer membership exactly: the tool
-/

namespace Dw
namespace BHM
open Spec BH

/-! ## Writing into the block -/

/-- Overwrite a stretch of the block. -/
def over (b : List UInt8) (o : Nat) (l : List UInt8) : List UInt8 := b.take o ++ l ++ b.drop (o + l.length)

theorem over_length {b l : List UInt8} {o : Nat} (h : o + l.length ≤ b.length) : (over b o l).length = b.length := by
  simp [over]; omega

theorem over_nil (b : List UInt8) (o : Nat) : over b o [] = b := by simp [over]

theorem over_get {b l : List UInt8} {o : Nat} (h : o + l.length ≤ b.length) (i : Nat) :
    (over b o l)[i]? = if i < o then b[i]? else if i < o + l.length then l[i - o]? else b[i]? := by
  have h1 : (b.take o).length = o := by rw [List.length_take]; omega
  unfold over
  by_cases hi : i < o
  · rw [if_pos hi, List.append_assoc, List.getElem?_append_left (by omega), List.getElem?_take, if_pos hi]
  · rw [if_neg hi, List.append_assoc, List.getElem?_append_right (by omega), h1]
    by_cases hj : i < o + l.length
    · rw [if_pos hj, List.getElem?_append_left (by omega)]
    · rw [if_neg hj, List.getElem?_append_right (by omega), List.getElem?_drop]
      congr 1; omega

theorem over_over {b l m : List UInt8} {o : Nat} (h : o + l.length + m.length ≤ b.length) :
    over (over b o l) (o + l.length) m = over b o (l ++ m) := by
  apply List.ext_getElem?
  intro i
  have hl : (over b o l).length = b.length := over_length (by omega)
  rw [over_get (o := o + l.length) (by rw [hl]; omega), over_get (by omega),
    over_get (l := l ++ m) (by rw [List.length_append]; omega)]
  simp only [List.length_append]
  by_cases h1 : i < o
  · rw [if_pos h1, if_pos h1, if_pos (by omega)]
  · by_cases h2 : i < o + l.length
    · rw [if_pos h2, if_neg h1, if_pos h2, if_neg h1, if_pos (by omega), List.getElem?_append_left (by omega)]
    · rw [if_neg h2, if_neg h1, if_neg h1, if_neg h2]
      by_cases h3 : i < o + l.length + m.length
      · rw [if_pos h3, if_pos (by omega), List.getElem?_append_right (by omega)]
        congr 1; omega
      · rw [if_neg h3, if_neg (by omega)]

theorem at_over {b l : List UInt8} {o : Nat} (h : o + l.length ≤ b.length) : At (over b o l) o l := by
  have h1 : (b.take o).length = o := by rw [List.length_take]; omega
  unfold At over
  rw [List.append_assoc, List.drop_append_of_le_length (by omega), List.drop_of_length_le (by omega),
    List.nil_append, List.take_left']
  rfl

theorem at_iff {file l : List UInt8} {o : Nat} : At file o l ↔ ∀ i, i < l.length → file[o + i]? = l[i]? := by
  constructor
  · intro h i hi
    conv => rhs; rw [← h]
    rw [List.getElem?_take, if_pos hi, List.getElem?_drop]
  · intro h
    unfold At
    apply List.ext_getElem?
    intro i
    rw [List.getElem?_take]
    split
    · next hi => rw [List.getElem?_drop, h i hi]
    · next hi => rw [List.getElem?_eq_none (by omega)]

theorem at_over_other {b l m : List UInt8} {o p : Nat} (h : o + l.length ≤ b.length) (hm : At b p m)
    (hd : p + m.length ≤ o ∨ o + l.length ≤ p) : At (over b o l) p m := by
  rw [at_iff] at *
  intro i hi
  rw [over_get h, ← hm i hi]
  rcases hd with hd | hd
  · rw [if_pos (by omega)]
  · rw [if_neg (by omega), if_neg (by omega)]

theorem at_take_of {b l : List UInt8} {o n : Nat} (h : At b o l) (hn : o + l.length ≤ n) : At (b.take n) o l := by
  rw [at_iff] at *
  intro i hi
  rw [List.getElem?_take, if_pos (by omega), h i hi]

theorem wr_over {b : List UInt8} {i : Nat} (x : UInt8) (h : i < b.length) : wr b i x = .ok (over b i [x]) := by
  rw [wr, if_pos h, List.set_eq_take_append_cons_drop, if_pos h]
  simp [over]

theorem over_cons {b l : List UInt8} {o : Nat} {x : UInt8} (h : o + 1 + l.length ≤ b.length) :
    over (over b o [x]) (o + 1) l = over b o (x :: l) := by
  have := over_over (b := b) (l := [x]) (m := l) (o := o) (by simp; omega)
  simpa using this

theorem copyIn_over {b : List UInt8} (l : List UInt8) {o : Nat} (h : o + l.length ≤ b.length) :
    copyIn b o l = .ok (over b o l) := by
  induction l generalizing b o with
  | nil => rw [copyIn, over_nil]
  | cons x l ih =>
    rw [List.length_cons] at h
    rw [copyIn, wr_over x (by omega)]
    simp only [Res.ok_bind]
    rw [ih (by rw [over_length (by simp; omega)]; omega), over_cons (by omega)]

theorem write16_over {b : List UInt8} {n o : Nat} (h : o + 2 ≤ b.length) :
    write16 b n o b.length = .ok (over b o (be16 n)) := by
  rw [write16, if_neg (by omega), wr_over _ (by omega)]
  simp only [Res.ok_bind]
  rw [wr_over _ (by rw [over_length (by simp; omega)]; omega), over_cons (by simp; omega)]
  rfl

theorem be32_bytes (n : Nat) : be32 n =
    [UInt8.ofNat (n / 16777216), UInt8.ofNat (n / 65536), UInt8.ofNat (n / 256), UInt8.ofNat n] := by
  simp only [be32, be16, List.cons_append, List.nil_append, List.cons.injEq, and_true]
  refine ⟨?_, trivial, ?_, ?_⟩ <;> apply UInt8.toNat_inj.1 <;> simp only [UInt8.toNat_ofNat'] <;> omega

theorem write32_over {b : List UInt8} {n o : Nat} (h : o + 4 ≤ b.length) :
    write32 b n o b.length = .ok (over b o (be32 n)) := by
  have := copyIn_over (b := b) [UInt8.ofNat (n / 16777216), UInt8.ofNat (n / 65536), UInt8.ofNat (n / 256),
    UInt8.ofNat n] (o := o) (by simp; omega)
  rw [write32, if_neg (by omega), be32_bytes, ← this]
  simp only [copyIn]
  rw [wr_over _ (by omega)]
  simp only [Res.ok_bind]
  have l1 : (over b o [UInt8.ofNat (n / 16777216)]).length = b.length := over_length (by simp; omega)
  rw [wr_over _ (by omega)]
  simp only [Res.ok_bind]
  rw [over_cons (by simp; omega)]
  have l2 : (over b o [UInt8.ofNat (n / 16777216), UInt8.ofNat (n / 65536)]).length = b.length :=
    over_length (by simp; omega)
  rw [wr_over _ (by omega)]
  simp only [Res.ok_bind]
  have l3 : (over (over b o [UInt8.ofNat (n / 16777216), UInt8.ofNat (n / 65536)]) (o + 1 + 1)
    [UInt8.ofNat (n / 256)]).length = b.length := by rw [over_length (by simp; omega), l2]
  have e : o + 1 + 1 = o + 2 := rfl
  rw [e] at l3
  rw [wr_over _ (by omega)]
  rfl

/-! ## Chains -/

theorem writeEntries_over (c : List (List UInt8)) (b : List UInt8) (o : Nat)
    (hs : ∀ s ∈ c, s.length ≤ 1040) (h : o + (c.flatMap encEntry).length < b.length) :
    writeEntries b.length c b o = .ok (over b o (c.flatMap encEntry), o + (c.flatMap encEntry).length) := by
  induction c generalizing b o with
  | nil => simp [writeEntries, over_nil]
  | cons s c ih =>
    have hl : (encEntry s).length = s.length + 2 := by simp [encEntry, be16]
    rw [List.flatMap_cons, List.length_append, hl] at h
    rw [writeEntries, if_neg (by have := hs s (by simp); omega), write16_over (by omega)]
    simp only [Res.ok_bind]
    have l1 : (over b o (be16 s.length)).length = b.length := over_length (by simp [be16]; omega)
    rw [writeString, if_neg (by omega), copyIn_over _ (by omega)]
    simp only [Res.ok_bind]
    have e : over (over b o (be16 s.length)) (o + 2) s = over b o (encEntry s) :=
      over_over (b := b) (l := be16 s.length) (m := s) (o := o) (by simp [be16]; omega)
    have l2 : (over b o (encEntry s)).length = b.length := over_length (by omega)
    rw [e]
    have := ih (over b o (encEntry s)) (o + 2 + s.length) (fun x hx => hs x (by simp [hx])) (by omega)
    rw [l2] at this
    rw [this, show o + 2 + s.length = o + (encEntry s).length by omega, over_over (by omega), List.flatMap_cons,
      List.length_append]
    congr 2; omega

theorem writeChain_over (c : List (List UInt8)) (b : List UInt8) (o : Nat)
    (hs : ∀ s ∈ c, s.length ≤ 1040) (h : o + 1 + (encChain c).length ≤ b.length) :
    writeChain c b (o + 1) b.length o = .ok (over b (o + 1) (encChain c), o + (encChain c).length) := by
  have hl : (encChain c).length = (c.flatMap encEntry).length + 1 := by simp [encChain]
  rw [writeChain, if_neg (by omega), writeEntries_over c b _ hs (by omega)]
  simp only [Res.ok_bind]
  have l1 : (over b (o + 1) (c.flatMap encEntry)).length = b.length := over_length (by omega)
  rw [terminator, if_neg (by omega), wr_over _ (by omega)]
  simp only [Res.ok_bind]
  rw [over_over (by rw [List.length_singleton]; omega), if_pos (by omega)]
  congr 2
  omega

/-! ## The table -/

/-- Size of the chains in the file. -/
def size : List (List (List UInt8)) → Nat
  | [] => 0
  | c :: cs => (if c = [] then 0 else (encChain c).length) + size cs

theorem writeBuckets_at (all : List (List (List UInt8))) (cs : List (List (List UInt8))) (i : Nat) (b : List UInt8)
    (mo : Nat) (hi : all.drop i = cs) (hil : i ≤ all.length)
    (hs : ∀ c ∈ cs, ∀ s ∈ c, s.length ≤ 1040)
    (hm : mo + 1 + size cs ≤ b.length) (h0 : 16 + 4 * all.length ≤ mo + 1) (hb : b.length < 2147483648) :
    ∃ b', writeBuckets b.length i cs b mo = .ok (b', mo + size cs) ∧ b'.length = b.length ∧
      (∀ p l, At b p l → p + l.length ≤ 16 + 4 * i → At b' p l) ∧
      (∀ p l, At b p l → 16 + 4 * all.length ≤ p → p + l.length ≤ mo + 1 → At b' p l) ∧
      ∀ j (hj : j < all.length), i ≤ j →
        (all[j] = [] → At b' (16 + 4 * j) (be32 0)) ∧
        (all[j] ≠ [] → ∃ off, 0 < off ∧ off + (encChain all[j]).length ≤ mo + 1 + size cs ∧
          At b' (16 + 4 * j) (be32 off) ∧ At b' off (encChain all[j])) := by
  induction cs generalizing i b mo with
  | nil =>
    refine ⟨b, rfl, rfl, fun _ _ h _ => h, fun _ _ h _ _ => h, fun j hj hij => ?_⟩
    have := congrArg List.length hi
    rw [List.length_drop] at this
    simp at this
    omega
  | cons c cs ih =>
    have hlt : i < all.length := by
      have := congrArg List.length hi
      rw [List.length_drop] at this
      simp at this
      omega
    have hget : all[i] = c := by
      rw [List.drop_eq_getElem_cons hlt] at hi
      injection hi
    have hdrop : all.drop (i + 1) = cs := by
      rw [List.drop_eq_getElem_cons hlt] at hi
      injection hi
    rw [size] at hm
    rw [writeBuckets, writeBucket, size]
    by_cases hc : c = []
    · rw [if_pos hc] at hm
      simp only [hc, if_true]
      rw [write32_over (by omega)]
      simp only [Res.ok_bind]
      have hl : (over b (16 + 4 * i) (be32 0)).length = b.length := over_length (by rw [be32_length]; omega)
      obtain ⟨b', h1, h2, h3, h4, h5⟩ := ih (i + 1) (over b (16 + 4 * i) (be32 0)) mo hdrop hlt
        (fun c hc => hs c (by simp [hc])) (by omega) h0 (by omega)
      rw [hl] at h1
      refine ⟨b', by rw [h1]; simp, by omega, ?_, ?_, ?_⟩
      · intro p l hp hpl
        exact h3 p l (at_over_other (by rw [be32_length]; omega) hp (by left; omega)) (by omega)
      · intro p l hp h6 h7
        exact h4 p l (at_over_other (by rw [be32_length]; omega) hp (by right; rw [be32_length]; omega)) h6 h7
      · intro j hj hij
        by_cases hji : j = i
        · subst hji
          refine ⟨fun _ => ?_, fun hne => absurd (hget.trans hc) hne⟩
          exact h3 _ _ (at_over (by rw [be32_length]; omega)) (by rw [be32_length]; omega)
        · have := h5 j hj (by omega)
          simpa using this
    · rw [if_neg hc] at hm
      simp only [hc, if_false]
      have hl : (over b (16 + 4 * i) (be32 (mo + 1))).length = b.length := over_length (by rw [be32_length]; omega)
      rw [write32_over (by omega)]
      simp only [Res.ok_bind]
      have hw := writeChain_over c (over b (16 + 4 * i) (be32 (mo + 1))) mo (hs c (by simp)) (by omega)
      rw [hl] at hw
      rw [hw]
      simp only [Res.ok_bind]
      have hl2 : (over (over b (16 + 4 * i) (be32 (mo + 1))) (mo + 1) (encChain c)).length = b.length := by
        rw [over_length (by omega), hl]
      obtain ⟨b', h1, h2, h3, h4, h5⟩ := ih (i + 1) (over (over b (16 + 4 * i) (be32 (mo + 1))) (mo + 1) (encChain c))
        (mo + (encChain c).length) hdrop hlt (fun c hc => hs c (by simp [hc])) (by omega) (by omega) (by omega)
      rw [hl2] at h1
      refine ⟨b', by rw [h1, Nat.add_assoc], by omega, ?_, ?_, ?_⟩
      · intro p l hp hpl
        exact h3 p l (at_over_other (by omega) (at_over_other (by rw [be32_length]; omega) hp (by left; omega))
          (by left; omega)) (by omega)
      · intro p l hp h6 h7
        exact h4 p l (at_over_other (by omega) (at_over_other (by rw [be32_length]; omega) hp
          (by right; rw [be32_length]; omega)) (by left; omega)) h6 (by omega)
      · intro j hj hij
        by_cases hji : j = i
        · subst hji
          refine ⟨fun he => absurd (hget.symm.trans he) hc, fun _ => ⟨mo + 1, by omega, ?_, ?_, ?_⟩⟩
          · rw [hget]; omega
          · exact h3 _ _ (at_over_other (by omega) (at_over (by rw [be32_length]; omega))
              (by left; rw [be32_length]; omega)) (by rw [be32_length]; omega)
          · rw [hget]
            exact h4 _ _ (at_over (by omega)) (by omega) (by omega)
        · obtain ⟨ha, hb2⟩ := h5 j hj (by omega)
          refine ⟨ha, fun hne => ?_⟩
          obtain ⟨off, o1, o2, o3, o4⟩ := hb2 hne
          exact ⟨off, o1, by omega, o3, o4⟩

/-- Bytes of all strings with their lengths. -/
def weight (chains : List (List (List UInt8))) : Nat := (chains.map fun c => (c.flatMap encEntry).length).sum

theorem size_le (chains : List (List (List UInt8))) : size chains ≤ weight chains + chains.length := by
  induction chains with
  | nil => simp [size]
  | cons c cs ih =>
    have : weight (c :: cs) = (c.flatMap encEntry).length + weight cs := by
      unfold weight
      rw [List.map_cons, List.sum_cons]
    rw [size, this, List.length_cons]
    have : (encChain c).length = (c.flatMap encEntry).length + 1 := by
      rw [encChain, List.length_append, List.length_singleton]
    split <;> omega

/-- The file that is written for given chains is a block file with these chains, whatever
was in the memory before. -/
theorem makeFile_exact (k1 k2 : UInt32) (chains : List (List (List UInt8))) (junk : Nat → UInt8)
    (hs : ∀ s ∈ chains.flatten, s.length ≤ 1040)
    (hb : 16 + 4 * chains.length + weight chains + chains.length < 2147483648) :
    ∃ file, makeFile k1 k2 chains (weight chains) junk = .ok file ∧ BlockFile file k1 k2 chains ∧
      file.length = 16 + 4 * chains.length + size chains := by
  have hsz := size_le chains
  unfold makeFile
  simp only
  generalize hmax : 16 + 4 * chains.length + weight chains + chains.length = max at *
  generalize hb0 : (List.range max).map junk = b0
  have l0 : b0.length = max := by subst hb0; simp
  subst l0
  rw [writeHeader, if_neg (by omega), copyIn_over _ (by simp; omega)]
  simp only [Res.ok_bind]
  generalize hb1 : over b0 0 [0, 68, 119, 66] = b1
  have l1 : b1.length = b0.length := by subst hb1; exact over_length (by simp; omega)
  have a1 : At b1 0 [0, 68, 119, 66] := by subst hb1; exact at_over (by simp; omega)
  rw [← l1, write32_over (by omega)]
  simp only [Res.ok_bind]
  generalize hb2 : over b1 4 (be32 k1.toNat) = b2
  have l2 : b2.length = b1.length := by subst hb2; exact over_length (by rw [be32_length]; omega)
  have a2 : At b2 0 [0, 68, 119, 66] := by
    subst hb2; exact at_over_other (by rw [be32_length]; omega) a1 (by left; simp)
  have a3 : At b2 4 (be32 k1.toNat) := by subst hb2; exact at_over (by rw [be32_length]; omega)
  rw [← l2, write32_over (by omega)]
  simp only [Res.ok_bind]
  generalize hb3 : over b2 8 (be32 k2.toNat) = b3
  have l3 : b3.length = b2.length := by subst hb3; exact over_length (by rw [be32_length]; omega)
  have a4 : At b3 0 [0, 68, 119, 66] := by
    subst hb3; exact at_over_other (by rw [be32_length]; omega) a2 (by left; simp)
  have a5 : At b3 4 (be32 k1.toNat) := by
    subst hb3; exact at_over_other (by rw [be32_length]; omega) a3 (by left; rw [be32_length]; omega)
  have a6 : At b3 8 (be32 k2.toNat) := by subst hb3; exact at_over (by rw [be32_length]; omega)
  rw [← l3, write32_over (by omega)]
  simp only [Res.ok_bind]
  generalize hb4 : over b3 12 (be32 chains.length) = b4
  have l4 : b4.length = b3.length := by subst hb4; exact over_length (by rw [be32_length]; omega)
  have a7 : At b4 0 [0, 68, 119, 66] := by
    subst hb4; exact at_over_other (by rw [be32_length]; omega) a4 (by left; simp)
  have a8 : At b4 4 (be32 k1.toNat) := by
    subst hb4; exact at_over_other (by rw [be32_length]; omega) a5 (by left; rw [be32_length]; omega)
  have a9 : At b4 8 (be32 k2.toNat) := by
    subst hb4; exact at_over_other (by rw [be32_length]; omega) a6 (by left; rw [be32_length]; omega)
  have a10 : At b4 12 (be32 chains.length) := by subst hb4; exact at_over (by rw [be32_length]; omega)
  rw [← l4]
  obtain ⟨b', h1, h2, h3, -, h5⟩ := writeBuckets_at chains chains 0 b4 (16 + chains.length * 4 - 1) rfl (by omega)
    (fun c hc s hsc => hs s (List.mem_flatten.2 ⟨c, hc, hsc⟩)) (by omega) (by omega) (by omega)
  rw [h1]
  simp only [Res.ok_bind]
  have en : 16 + chains.length * 4 - 1 + size chains + 1 = 16 + 4 * chains.length + size chains := by omega
  rw [en]
  refine ⟨_, rfl, ⟨?_, ?_, ?_, ?_, ?_, ?_⟩, by rw [List.length_take]; omega⟩
  · exact at_take_of (h3 _ _ a7 (by simp)) (by simp; omega)
  · exact at_take_of (h3 _ _ a8 (by rw [be32_length]; omega)) (by rw [be32_length]; omega)
  · exact at_take_of (h3 _ _ a9 (by rw [be32_length]; omega)) (by rw [be32_length]; omega)
  · exact at_take_of (h3 _ _ a10 (by rw [be32_length]; omega)) (by rw [be32_length]; omega)
  · intro i hi he
    exact at_take_of ((h5 i hi (by omega)).1 he) (by rw [be32_length]; omega)
  · intro i hi hne
    obtain ⟨off, o1, o2, o3, o4⟩ := (h5 i hi (by omega)).2 hne
    have hpos : 1 ≤ (encChain chains[i]).length := by simp [encChain]
    exact ⟨off, o1, by omega, at_take_of o3 (by rw [be32_length]; omega), at_take_of o4 (by omega)⟩

/-! ## The buckets -/

theorem place_some {s : List UInt8} {c d : List (List UInt8)} (h : place s c = some d) : d = c ++ [s] ∧ s ∉ c := by
  induction c generalizing d with
  | nil => simp [place] at h; simp [← h]
  | cons t c ih =>
    rw [place] at h
    split at h
    · simp at h
    · next hst =>
      rw [Option.map_eq_some_iff] at h
      obtain ⟨e, he, rfl⟩ := h
      obtain ⟨rfl, h2⟩ := ih he
      simp [hst, h2]

theorem place_none {s : List UInt8} {c : List (List UInt8)} (h : place s c = none) : s ∈ c := by
  induction c with
  | nil => simp [place] at h
  | cons t c ih =>
    rw [place] at h
    split at h
    · next hst => simp [hst]
    · rw [Option.map_eq_none_iff] at h
      simp [ih h]

theorem weight_set (chains : List (List (List UInt8))) (i : Nat) (hi : i < chains.length) (s : List UInt8) :
    weight (chains.set i (chains[i] ++ [s])) = weight chains + s.length + 2 := by
  induction chains generalizing i with
  | nil => simp at hi
  | cons c cs ih =>
    have hw : ∀ c cs, weight (c :: cs) = (c.flatMap encEntry).length + weight cs := by
      intro c cs; unfold weight; rw [List.map_cons, List.sum_cons]
    cases i with
    | zero =>
      rw [List.set_cons_zero, hw, hw, List.getElem_cons_zero, List.flatMap_append, List.length_append]
      simp only [List.flatMap_cons, List.flatMap_nil, List.append_nil, encEntry, List.length_append, be16,
        List.length_cons, List.length_nil]
      omega
    | succ i =>
      rw [List.set_cons_succ, hw, hw, List.getElem_cons_succ, ih i (by simpa using hi)]
      omega

theorem mem_flatten_set {chains : List (List (List UInt8))} {i : Nat} (hi : i < chains.length) (s x : List UInt8) :
    x ∈ (chains.set i (chains[i] ++ [s])).flatten ↔ x ∈ chains.flatten ∨ x = s := by
  rw [List.mem_flatten, List.mem_flatten]
  constructor
  · rintro ⟨c, hc, hx⟩
    rcases List.mem_or_eq_of_mem_set hc with h | h
    · exact Or.inl ⟨c, h, hx⟩
    · subst h
      rcases List.mem_append.1 hx with h | h
      · exact Or.inl ⟨_, List.getElem_mem hi, h⟩
      · exact Or.inr (by simpa using h)
  · rintro (⟨c, hc, hx⟩ | rfl)
    · obtain ⟨j, hj, rfl⟩ := List.getElem_of_mem hc
      by_cases hji : i = j
      · subst hji
        exact ⟨_, List.mem_set hi _, List.mem_append_left _ hx⟩
      · refine ⟨chains[j], ?_, hx⟩
        have hj' : j < (chains.set i (chains[i] ++ [s])).length := by rw [List.length_set]; exact hj
        have := List.getElem_set_ne (l := chains) hji (a := chains[i] ++ [s]) hj'
        rw [← this]
        exact List.getElem_mem _
    · exact ⟨_, List.mem_set hi _, List.mem_append_right _ (by simp)⟩

/-- The buckets hold exactly the strings, each in its place, and the size is right. -/
theorem fillHash_exact (k1 k2 : UInt32) (l : List (List UInt8)) (chains : List (List (List UInt8)))
    (hp : Placed k1 k2 chains) (h0 : l ≠ [] → chains ≠ []) :
    ∃ chains', fillHash k1 k2 l (chains, weight chains) = .ok (chains', weight chains') ∧
      chains'.length = chains.length ∧ Placed k1 k2 chains' ∧
      weight chains' ≤ weight chains + (l.map fun s => s.length + 2).sum ∧
      ∀ x, x ∈ chains'.flatten ↔ x ∈ chains.flatten ∨ x ∈ l := by
  induction l generalizing chains with
  | nil => exact ⟨chains, rfl, rfl, hp, by simp, by simp⟩
  | cons s l ih =>
    have hne : 0 < chains.length := List.length_pos_iff.2 (h0 (by simp))
    rw [fillHash, HS.halfSip13_exact _ _ _ _ (Nat.le_refl _), List.take_length]
    simp only
    rw [if_neg (by omega)]
    generalize hi : (HalfSip.hash k1 k2 s).toNat % chains.length = i
    have hil : i < chains.length := by subst hi; exact Nat.mod_lt _ hne
    have hg : chains.getD i [] = chains[i] := by simp [List.getD_eq_getElem?_getD, hil]
    rw [hg]
    rcases hpl : place s chains[i] with _ | d
    · simp only
      have hm := place_none hpl
      obtain ⟨c', h1, h2, h3, h5, h4⟩ := ih chains hp (fun _ => by intro h; simp [h] at hne)
      refine ⟨c', h1, h2, h3, by rw [List.map_cons, List.sum_cons]; omega, fun x => ?_⟩
      rw [h4, List.mem_cons]
      constructor
      · rintro (h | h) <;> simp [h]
      · rintro (h | rfl | h)
        · simp [h]
        · exact Or.inl (List.mem_flatten.2 ⟨_, List.getElem_mem hil, hm⟩)
        · simp [h]
    · simp only
      obtain ⟨rfl, -⟩ := place_some hpl
      have hp' : Placed k1 k2 (chains.set i (chains[i] ++ [s])) := by
        intro j hj x hx
        rw [List.length_set] at hj ⊢
        by_cases hji : i = j
        · subst hji
          rw [List.getElem_set_self] at hx
          rcases List.mem_append.1 hx with h | h
          · exact hp i hj x h
          · have : x = s := by simpa using h
            subst this; exact hi
        · rw [List.getElem_set_ne hji] at hx
          exact hp j hj x hx
      obtain ⟨c', h1, h2, h3, h5, h4⟩ := ih (chains.set i (chains[i] ++ [s])) hp'
        (fun _ => by intro h; have := congrArg List.length h; rw [List.length_set, List.length_nil] at this; omega)
      rw [weight_set _ _ hil] at h1 h5
      refine ⟨c', h1, by rw [h2, List.length_set], h3, by rw [List.map_cons, List.sum_cons]; omega, fun x => ?_⟩
      rw [h4, mem_flatten_set hil, List.mem_cons, or_assoc]

end BHM
end Dw
