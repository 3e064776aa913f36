import Verif.Mara.ReplySqueeze
/-!
# Lemmas: replies are cut down until they fit
-/

namespace Mara
namespace Reply

open Spec
open Dw (Res)

theorem without_zero (p : Msg) : p.without 0 = p := by
  unfold Msg.without Msg.optional
  rw [List.take_of_length_le (by omega), List.take_of_length_le (by omega)]

theorem without_ns_length (p : Msg) (k : Nat) : (p.without k).ns.length = min (p.optional - k) p.ns.length := by
  unfold Msg.without; simp

theorem without_ar_length (p : Msg) (k : Nat) : (p.without k).ar.length = p.ar.length - k := by
  unfold Msg.without; simp

theorem without_optional (p : Msg) (k : Nat) : (p.without k).optional = p.optional - k := by
  have h1 := without_ns_length p k
  have h2 := without_ar_length p k
  unfold Msg.optional at *
  omega

theorem without_without (p : Msg) (j k : Nat) : (p.without j).without k = p.without (j + k) := by
  have h1 := without_optional p j
  have h2 := without_ar_length p j
  unfold Msg.without at *
  simp only [Msg.mk.injEq, true_and]
  rw [h1, h2, List.take_take, List.take_take]
  refine ⟨?_, ?_⟩ <;> congr 1 <;> omega

theorem without_all_sub (p : Msg) (k : Nat) : ∀ r ∈ (p.without k).all, r ∈ p.all := by
  intro r hr
  unfold Msg.all Msg.without at *
  simp only [List.mem_append] at *
  rcases hr with (h | h) | h
  · exact .inl (.inl h)
  · exact .inl (.inr (List.mem_of_mem_take h))
  · exact .inr (List.mem_of_mem_take h)

theorem without_sound {p : Msg} (hp : p.Sound) (k : Nat) : (p.without k).Sound where
  head := hp.head
  qname := hp.qname
  qtype := hp.qtype
  qclass := hp.qclass
  recs := fun r hr => hp.recs r (without_all_sub p k r hr)
  an := hp.an
  ns := by have := without_ns_length p k; have := hp.ns; omega
  ar := by have := without_ar_length p k; have := hp.ar; omega

/-- All records but the last, and the last one. -/
theorem without_one_all {p : Msg} (h : 0 < p.optional) : ∃ r, p.all = (p.without 1).all ++ [r] := by
  unfold Msg.all Msg.without
  unfold Msg.optional at *
  by_cases ha : p.ar = []
  · rw [ha]
    simp only [List.length_nil, Nat.add_zero, List.take_nil, List.append_nil]
    rw [ha] at h
    have hn : p.ns ≠ [] := by intro hn; rw [hn] at h; simp at h
    refine ⟨p.ns.getLast hn, ?_⟩
    rw [← List.dropLast_eq_take, List.append_assoc, List.dropLast_append_getLast hn]
  · refine ⟨p.ar.getLast ha, ?_⟩
    have : 0 < p.ar.length := List.length_pos_iff.2 ha
    rw [List.take_of_length_le (by omega), ← List.dropLast_eq_take]
    simp only [List.append_assoc]
    rw [List.dropLast_append_getLast ha]

theorem head_cases {h : List UInt8} (hl : h.length = 4) : ∃ a b x y, h = [a, b, x, y] := by
  match h, hl with
  | [a, b, x, y], _ => exact ⟨a, b, x, y, rfl⟩

theorem tc_bit {x : UInt8} (h : x &&& 2 = 0) : (x &&& 2 != 0) = false := by rw [h]; rfl

theorem tc_set (x : UInt8) : ((x ||| 2) &&& 2 != 0) = true := by
  have h' : ∀ n : Fin 256, (fun x : UInt8 => ((x ||| 2) &&& 2 != 0) = true) (UInt8.ofNat n) := by decide +kernel
  have := h' ⟨x.toNat, x.toNat_lt⟩
  simpa using this

theorem tc_again (x : UInt8) : (x ||| 2) ||| 2 = x ||| 2 := by
  have h' : ∀ n : Fin 256, (fun x : UInt8 => (x ||| 2) ||| 2 = x ||| 2) (UInt8.ofNat n) := by decide +kernel
  have := h' ⟨x.toNat, x.toNat_lt⟩
  simpa using this

/-- `squeeze_to_fit` takes the last record of the authority or additional section away. -/
theorem squeeze_one {p : Msg} (hp : p.Sound) (ht : NotTruncated p.head) (hm : 0 < p.optional) :
    squeeze p.bytes = .ok (p.without 1).bytes := by
  obtain ⟨a, b, x, y, hh⟩ := head_cases hp.head
  rw [hh] at ht
  have ht' : x &&& 2 = 0 := ht
  obtain ⟨r, hall⟩ := without_one_all hm
  have hb : p.bytes = (p.header ++ p.question) ++ (((p.without 1).all.map Rec.toRR).flatMap RR.enc ++ r.toRR.enc) := by
    unfold Msg.bytes; rw [hall]; simp
  have hhl : p.header.length = 12 := by unfold Msg.header; rw [hh]; simp [be16]
  have hcount : p.an.length + p.ns.length + p.ar.length - 1 = (p.without 1).all.length := by
    have : p.all.length = (p.without 1).all.length + 1 := by rw [hall]; simp
    unfold Msg.all at this ⊢
    simp only [List.length_append] at this ⊢
    omega
  have hsq : skipQ p.bytes 1 12 = some (p.header ++ p.question).length := by
    have hq : p.bytes = p.header ++ (encName p.qname ++ (be16 p.qtype ++ be16 p.qclass ++ (p.all.map Rec.toRR).flatMap RR.enc)) := by
      unfold Msg.bytes Msg.question; simp
    have hd : Lookup.dlabel p.bytes 12 256 0 = some (encName p.qname).length := by
      rw [hq]
      have := Lookup.dlabel_name hp.qname.1 p.header (be16 p.qtype ++ be16 p.qclass ++ (p.all.map Rec.toRR).flatMap RR.enc) 12 256 0
        (by omega) (by have := Lookup.Fits.labels hp.qname.1; have := hp.qname.2; omega) (by have := hp.qname.2; omega)
      rw [this]; simp
    have hlen : (p.header ++ p.question).length = 12 + ((encName p.qname).length + 4) := by
      unfold Msg.question
      simp [hhl, be16]
    have hpos : 0 < r.toRR.enc.length := by unfold RR.enc; simp [be16]; omega
    unfold skipQ
    rw [hd]
    simp only
    rw [if_neg (by rw [hb]; simp only [List.length_append] at hlen ⊢; omega), hlen]
    rfl
  have hsr : skipR p.bytes (p.without 1).all.length (p.header ++ p.question).length =
      some ((p.header ++ p.question) ++ ((p.without 1).all.map Rec.toRR).flatMap RR.enc).length :=
    skipR_recs _ _ r (without_sound hp 1).recs hb
  unfold squeeze
  rw [readHdr_msg hp hh]
  simp only
  rw [if_neg (by rw [tc_bit ht']; unfold Msg.optional at hm; rintro (h | h); cases h; omega), hsq]
  simp only
  rw [hcount, hsr]
  simp only
  have hbody : (p.bytes.drop 12).take (((p.header ++ p.question) ++ ((p.without 1).all.map Rec.toRR).flatMap RR.enc).length - 12) =
      p.question ++ ((p.without 1).all.map Rec.toRR).flatMap RR.enc := by
    rw [hb]
    have : (p.header ++ p.question ++ (((p.without 1).all.map Rec.toRR).flatMap RR.enc ++ r.toRR.enc)) =
      p.header ++ ((p.question ++ ((p.without 1).all.map Rec.toRR).flatMap RR.enc) ++ r.toRR.enc) := by simp
    rw [this, ← hhl, List.drop_left, List.take_left']
    simp
  rw [hbody]
  congr 1
  unfold Msg.bytes
  rw [List.append_assoc]
  have hq1 : (p.without 1).question = p.question := rfl
  rw [hq1]
  congr 1
  have han : (p.without 1).an = p.an := rfl
  have hh1 : (p.without 1).head = [a, b, x, y] := hh
  unfold Msg.header
  rw [hh1, han, without_ns_length, without_ar_length]
  unfold Msg.optional at *
  by_cases har : p.ar.length > 0
  · rw [if_pos har]
    simp only
    rw [makeHdr_read, show min (p.ns.length + p.ar.length - 1) p.ns.length = p.ns.length by omega]
    simp only [Bool.false_eq_true, if_false, keep_notc x ht']
  · rw [if_neg har]
    simp only
    rw [makeHdr_read, show min (p.ns.length + p.ar.length - 1) p.ns.length = p.ns.length - 1 by omega,
      show p.ar.length - 1 = p.ar.length by omega]
    simp only [Bool.false_eq_true, if_false, keep_notc x ht']

/-- With nothing left to take away, only the header stays. -/
theorem squeeze_none {p : Msg} (hp : p.Sound) (hm : p.optional = 0) :
    squeeze p.bytes = .ok (truncated p.head) := by
  obtain ⟨a, b, x, y, hh⟩ := head_cases hp.head
  unfold squeeze
  rw [readHdr_msg hp hh]
  simp only
  rw [if_pos (by unfold Msg.optional at hm; right; omega)]
  unfold cut
  simp only
  rw [makeHdr_read, hh]
  simp only [if_true, keep_tc]
  rfl

theorem squeeze_truncated {h : List UInt8} (hl : h.length = 4) : squeeze (truncated h) = .ok (truncated h) := by
  obtain ⟨a, b, x, y, hh⟩ := head_cases hl
  subst hh
  unfold squeeze
  simp only [truncated, readHdr]
  rw [if_pos (.inl (tc_set x))]
  unfold cut
  simp only
  rw [makeHdr_read]
  simp only [if_true, keep_tc, tc_again]
  rfl

theorem truncated_length {h : List UInt8} (hl : h.length = 4) : (truncated h).length = 12 := by
  obtain ⟨a, b, x, y, hh⟩ := head_cases hl
  subst hh
  rfl

theorem fitLoop_truncated {h : List UInt8} (hl : h.length = 4) : ∀ n, fitLoop n (truncated h) (some (truncated h)) = .ok (some (truncated h))
  | 0 => rfl
  | n + 1 => by
    unfold fitLoop
    rw [squeeze_truncated hl]
    simp only [Res.ok_bind]
    rw [if_neg (by rw [truncated_length hl]; omega), if_pos (truncated_length hl), fitLoop_truncated hl n]

/-- The message is compressed to at most 512 bytes. -/
def Small (p : Msg) (c : List UInt8) : Prop := Comp.compress p.bytes 1024 5000 = .ok c ∧ c.length ≤ 512

theorem bytes_without_le (p : Msg) (k : Nat) : (p.without k).bytes.length ≤ p.bytes.length := by
  have hsum : ∀ (l : List Rec) (j : Nat), (((l.take j).map Rec.toRR).flatMap RR.enc).length ≤ ((l.map Rec.toRR).flatMap RR.enc).length := by
    intro l j
    conv => rhs; rw [← List.take_append_drop j l]
    rw [List.map_append, List.flatMap_append, List.length_append]
    omega
  have h1 : (p.without k).header.length = p.header.length := by
    unfold Msg.header Msg.without; simp [be16]
  have h2 : (p.without k).question = p.question := rfl
  unfold Msg.bytes
  simp only [List.length_append, h1, h2, Msg.all, List.map_append, List.flatMap_append]
  have := hsum p.ns (p.optional - k)
  have := hsum p.ar (p.ar.length - k)
  have e1 : (p.without k).an = p.an := rfl
  have e2 : (p.without k).ns = p.ns.take (p.optional - k) := rfl
  have e3 : (p.without k).ar = p.ar.take (p.ar.length - k) := rfl
  rw [e1, e2, e3]
  omega

/-- The result of `compress_data`, if there is one. -/
def packed (p : Msg) : Option (List UInt8) :=
  match Comp.compress p.bytes 1024 5000 with
  | .ok c => some c
  | _ => none

/-- What the loop that takes records away comes to: it stops as soon as the reply fits; after `n`
records it gives up; with nothing left to take away, the reply is cut down to its header. -/
def FitRes (n : Nat) (p : Msg) (last : Option (List UInt8)) (r : Res (Option (List UInt8))) : Prop :=
  (∃ k c, 1 ≤ k ∧ k ≤ n ∧ k ≤ p.optional ∧ Small (p.without k) c ∧ (∀ j, 1 ≤ j → j < k → ¬∃ c, Small (p.without j) c) ∧
    r = .ok (some c)) ∨
  (p.optional < n ∧ (∀ j, 1 ≤ j → j ≤ p.optional → ¬∃ c, Small (p.without j) c) ∧ r = .ok (some (truncated p.head))) ∨
  (n ≤ p.optional ∧ (∀ j, 1 ≤ j → j ≤ n → ¬∃ c, Small (p.without j) c) ∧
    r = .ok (if n = 0 then last else packed (p.without n)))

theorem fitLoop_spec : ∀ (n : Nat) {p : Msg} (last : Option (List UInt8)), p.Sound → NotTruncated p.head → p.bytes.length < 1024 →
    FitRes n p last (fitLoop n p.bytes last)
  | 0, p, last, _, _, _ => by
    right; right
    refine ⟨by omega, by intro j h1 h2; omega, ?_⟩
    rw [if_pos rfl]; rfl
  | n + 1, p, last, hp, ht, hs => by
    by_cases hm : p.optional = 0
    · right; left
      refine ⟨by omega, by intro j h1 h2; omega, ?_⟩
      unfold fitLoop
      rw [squeeze_none hp hm]
      simp only [Res.ok_bind]
      rw [if_neg (by rw [truncated_length hp.head]; omega), if_pos (truncated_length hp.head), fitLoop_truncated hp.head]
    · have hp1 := without_sound hp 1
      have hlen : (p.without 1).bytes.length > 12 := by
        have : (p.without 1).header.length = 12 := by
          obtain ⟨a, b, x, y, hh⟩ := head_cases hp.head
          have : (p.without 1).head = [a, b, x, y] := hh
          unfold Msg.header; rw [this]; simp [be16]
        unfold Msg.bytes Msg.question
        simp only [List.length_append, this]
        simp [be16]
        omega
      have hle := bytes_without_le p 1
      have hstep : fitLoop (n + 1) p.bytes last =
          (match Comp.compress (p.without 1).bytes 1024 5000 with
            | .ok c => if c.length ≤ 512 then .ok (some c) else fitLoop n (p.without 1).bytes (some c)
            | .err => fitLoop n (p.without 1).bytes none
            | .ub => .ub) := by
        conv => lhs; unfold fitLoop
        rw [squeeze_one hp ht (by omega)]
        simp only [Res.ok_bind]
        rw [if_pos hlen]
        cases Comp.compress (p.without 1).bytes 1024 5000 <;> rfl
      -- the rest of the loop, for a reply that is still too large
      have rest : ∀ last', packed (p.without 1) = last' → (¬∃ c, Small (p.without 1) c) →
          fitLoop (n + 1) p.bytes last = fitLoop n (p.without 1).bytes last' → FitRes (n + 1) p last (fitLoop (n + 1) p.bytes last) := by
        intro last' hl hns he
        have ih := fitLoop_spec n last' hp1 ht (by omega : (p.without 1).bytes.length < 1024)
        unfold FitRes at ih
        rw [← he, without_optional] at ih
        simp only [without_without] at ih
        rcases ih with ⟨k, c, h1, h2, h3, h4, h5, h6⟩ | ⟨h1, h2, h3⟩ | ⟨h1, h2, h3⟩
        · left
          refine ⟨1 + k, c, by omega, by omega, by omega, h4, ?_, h6⟩
          intro j hj1 hj2
          by_cases hj : j = 1
          · subst hj; exact hns
          · have := h5 (j - 1) (by omega) (by omega)
            rwa [show 1 + (j - 1) = j by omega] at this
        · right; left
          refine ⟨by omega, ?_, h3⟩
          intro j hj1 hj2
          by_cases hj : j = 1
          · subst hj; exact hns
          · have := h2 (j - 1) (by omega) (by omega)
            rwa [show 1 + (j - 1) = j by omega] at this
        · right; right
          refine ⟨by omega, ?_, ?_⟩
          · intro j hj1 hj2
            by_cases hj : j = 1
            · subst hj; exact hns
            · have := h2 (j - 1) (by omega) (by omega)
              rwa [show 1 + (j - 1) = j by omega] at this
          · rw [h3, if_neg (by omega : ¬ n + 1 = 0)]
            by_cases hn : n = 0
            · subst hn; rw [if_pos rfl, ← hl]
            · rw [if_neg hn, show 1 + n = n + 1 by omega]
      rcases Comp.compress_sound hp1 (um := 1024) (om := 5000) (by omega) with h | ⟨c, p', h, -, -, -, -⟩
      · rw [h] at hstep
        exact rest none (by unfold packed; rw [h]) (by rintro ⟨c, hc, -⟩; rw [h] at hc; cases hc) hstep
      · rw [h] at hstep
        simp only at hstep
        by_cases hc : c.length ≤ 512
        · rw [if_pos hc] at hstep
          left
          exact ⟨1, c, by omega, by omega, by omega, ⟨h, hc⟩, by intro j h1 h2; omega, hstep⟩
        · rw [if_neg hc] at hstep
          refine rest (some c) (by unfold packed; rw [h]) ?_ hstep
          rintro ⟨c', hc', hl'⟩
          rw [h] at hc'
          cases hc'
          exact hc hl'

end Reply
end Mara
