import Verif.Deadwood.CutLemmas
/-!
# C46: truncated replies are cut after the first answer; C37: what a reply can do
-/

namespace Dw
namespace Remote
open Acl (rd wr)
open Spec SR

/-- The header of a salvaged reply: not truncated, one answer, nothing else. -/
def salvaged (h : Header) : Header := { h with tc := false, ancount := 1, nscount := 0, arcount := 0 }

/-- Is a reply salvaged?  (The code looks at the low byte of the count only.) -/
def Salvages (h : Header) : Prop := h.tc = true ∧ h.ancount.val % 256 ≠ 0

instance (h : Header) : Decidable (Salvages h) := by unfold Salvages; infer_instance

theorem oneAnswer_exact (h : Header) (p : List UInt8) :
    oneAnswer (h.enc ++ p) = .ok ({ h with ancount := 1, nscount := 0, arcount := 0 }.enc ++ p) := by
  simp [oneAnswer, wr, Header.enc, word]

theorem clearTc (h : Header) (p : List UInt8) :
    (rd (h.enc ++ p) 2 >>= fun f => wr (h.enc ++ p) 2 (f &&& 0xfd)) = .ok ({ h with tc := false }.enc ++ p) := by
  have f : ∀ (qr : Bool) (op : Fin 16) (aa tc rd : Bool), flags1 qr op aa tc rd &&& 0xfd = flags1 qr op aa false rd := by
    decide +kernel
  simp [rd, wr, Header.enc, word, f]

theorem tc_bit : ∀ (qr : Bool) (op : Fin 16) (aa tc rd : Bool), (flags1 qr op aa tc rd &&& 2 ≠ 0) ↔ tc = true := by
  decide +kernel

theorem rd2 (h : Header) (p : List UInt8) : rd (h.enc ++ p) 2 = .ok (flags1 h.qr h.opcode h.aa h.tc h.rd) := rfl
theorem rd7 (h : Header) (p : List UInt8) : rd (h.enc ++ p) 7 = .ok (UInt8.ofNat h.ancount.val) := rfl

theorem ofNat_ne_zero (n : Nat) : UInt8.ofNat n ≠ 0 ↔ n % 256 ≠ 0 := by
  rw [Ne, ← UInt8.toNat_inj, UInt8.toNat_ofNat']
  rfl

/-- Everything that can happen to a packet when salvaging is on. -/
theorem salvage_eq (h : Header) (p : List UInt8) (count : Nat) :
    salvage (h.enc ++ p) count true =
      if Salvages h then
        (cut ({ h with ancount := 1, nscount := 0, arcount := 0 }.enc ++ p) count 12 0 0 count >>= fun r =>
          match r with
          | none => .ok none
          | some k => .ok (some ((salvaged h).enc ++ p, k)))
      else .ok (some (h.enc ++ p, count)) := by
  unfold salvage
  rw [rd2, rd7]
  simp only [Res.ok_bind]
  by_cases hs : Salvages h
  · rw [if_pos ⟨(tc_bit _ _ _ _ _).2 hs.1, (ofNat_ne_zero _).2 hs.2, trivial⟩, if_pos hs, oneAnswer_exact]
    simp only [Res.ok_bind]
    congr 1
    funext r
    match r with
    | none => rfl
    | some k =>
      simp only
      have := clearTc { h with ancount := 1, nscount := 0, arcount := 0 } p
      rw [rd2] at this ⊢
      simp only [Res.ok_bind] at this ⊢
      rw [this]
      rfl
  · rw [if_neg hs, if_neg]
    rintro ⟨h1, h2, -⟩
    exact hs ⟨(tc_bit _ _ _ _ _).1 h1, (ofNat_ne_zero _).1 h2⟩

theorem cut_question (h : Header) {ls : List (List UInt8)} (hok : LabelsOk ls) (rest : List UInt8) (count : Nat)
    (h1 : 12 + (encName ls).length ≤ count) (h2 : count ≤ (h.enc ++ (encName ls ++ rest)).length) :
    cut (h.enc ++ (encName ls ++ rest)) count 12 0 0 count =
      cut (h.enc ++ (encName ls ++ rest)) (count - (encName ls).length) (12 + (encName ls).length) 7 4 count := by
  have := cut_name (h.enc ++ (encName ls ++ rest)) hok (count - (encName ls).length) 12 0 count rest
    (by rw [List.drop_left' (enc_length h)]) h1 h2
  rwa [Nat.sub_add_cancel (by omega)] at this

/-- **C46.** A truncated reply whose first answer is for the name of the question (written
as a pointer) and has less than 256 bytes of data: the salvaged packet is the question
and that whole answer and nothing else, with the counts to match. -/
theorem salvage_exact (h : Header) (hs : Salvages h) {ls : List (List UInt8)} (hok : LabelsOk ls) {q t d : List UInt8}
    (hq : q.length = 4) (ht : t.length = 8) (hd : d.length < 256) (rest : List UInt8) :
    ∃ a k, salvage (h.enc ++ (encName ls ++ (q ++ ([0xc0, 0x0c] ++ (t ++ ([0, UInt8.ofNat d.length] ++ (d ++ rest)))))))
        (12 + (encName ls).length + 16 + d.length + rest.length) true = .ok (some (a, k)) ∧
      a.take k = (salvaged h).enc ++ (encName ls ++ (q ++ ([0xc0, 0x0c] ++ (t ++ ([0, UInt8.ofNat d.length] ++ d))))) := by
  rw [salvage_eq]
  rw [if_pos hs]
  generalize hr : q ++ ([0xc0, 0x0c] ++ (t ++ ([0, UInt8.ofNat d.length] ++ (d ++ rest)))) = r
  have hrl : r.length = 16 + d.length + rest.length := by rw [← hr]; simp [hq, ht]; omega
  generalize hh : ({ h with ancount := 1, nscount := 0, arcount := 0 } : Header) = h'
  have hl := enc_length h'
  have hl2 := enc_length (salvaged h)
  rw [cut_question h' hok r _ (by omega) (by simp only [List.length_append, hl, hrl]; omega)]
  have hget : ∀ i, i < 16 → (h'.enc ++ (encName ls ++ r))[12 + (encName ls).length + i]? =
      (q ++ ([0xc0, 0x0c] ++ (t ++ [0, UInt8.ofNat d.length])))[i]? := by
    intro i hi
    rw [List.getElem?_append_right (by omega), List.getElem?_append_right (by omega), hl]
    have e : 12 + (encName ls).length + i - 12 - (encName ls).length = i := by omega
    rw [e, ← hr]
    have e2 : q ++ ([0xc0, 0x0c] ++ (t ++ ([0, UInt8.ofNat d.length] ++ (d ++ rest)))) =
        (q ++ ([0xc0, 0x0c] ++ (t ++ [0, UInt8.ofNat d.length]))) ++ (d ++ rest) := by simp
    rw [e2, List.getElem?_append_left (by simp [hq, ht]; omega)]
  match q, hq, t, ht with
  | [q0, q1, q2, q3], _, [t0, t1, t2, t3, t4, t5, t6, t7], _ =>
    have hdl : (UInt8.ofNat d.length).toNat = d.length := by rw [UInt8.toNat_ofNat']; omega
    have g15 := hget 15 (by omega)
    rcases cut_record (h'.enc ++ (encName ls ++ r)) (12 + (encName ls).length + 16 + d.length + rest.length - (encName ls).length)
      (12 + (encName ls).length) (12 + (encName ls).length + 16 + d.length + rest.length)
      (by simp only [List.length_append, hl, hrl]; omega) (by omega) (by omega) with ⟨-, c, hc, hcut⟩ | ⟨hn, -⟩
    · rw [g15] at hc
      simp only [List.cons_append, List.nil_append, List.getElem?_cons_succ, List.getElem?_cons_zero, Option.some.injEq] at hc
      rw [hcut]
      simp only [Res.ok_bind]
      refine ⟨_, _, rfl, ?_⟩
      rw [← hc, hdl, List.take_append, List.take_of_length_le (by omega), hl2, List.take_append,
        List.take_of_length_le (by omega), ← hr]
      congr 2
      have e3 : 12 + (encName ls).length + 16 + d.length - 12 - (encName ls).length =
          ([q0, q1, q2, q3] ++ ([0xc0, 0x0c] ++ ([t0, t1, t2, t3, t4, t5, t6, t7] ++ ([0, UInt8.ofNat d.length] ++ d)))).length := by
        simp; omega
      rw [e3]
      have e4 : [q0, q1, q2, q3] ++ ([0xc0, 0x0c] ++ ([t0, t1, t2, t3, t4, t5, t6, t7] ++ ([0, UInt8.ofNat d.length] ++ (d ++ rest)))) =
          [q0, q1, q2, q3] ++ ([0xc0, 0x0c] ++ ([t0, t1, t2, t3, t4, t5, t6, t7] ++ ([0, UInt8.ofNat d.length] ++ d))) ++ rest := by
        simp
      rw [e4, List.take_left']
      rfl
    · exfalso
      apply hn
      refine ⟨?_, ?_, ?_, UInt8.ofNat d.length, ?_, by omega⟩
      · rw [hget 4 (by omega)]; rfl
      · rw [hget 5 (by omega)]; rfl
      · rw [hget 14 (by omega)]; rfl
      · rw [g15]; rfl

/-- C46, the other direction, for every truncated reply with a question that was accepted
(C37): it is dropped, or cut right after a first answer of that form, or, when there is
no room for an answer at all, left at its length. -/
theorem salvage_sound_partial (h : Header) (hs : Salvages h) {ls : List (List UInt8)} (hok : LabelsOk ls) (rest : List UInt8)
    (count : Nat) (h1 : 12 + (encName ls).length ≤ count) (h2 : count ≤ (h.enc ++ (encName ls ++ rest)).length) :
    salvage (h.enc ++ (encName ls ++ rest)) count true = .ok none ∨
    (∃ q t d rest', rest = q ++ ([0xc0, 0x0c] ++ (t ++ ([0, UInt8.ofNat d.length] ++ (d ++ rest')))) ∧
      q.length = 4 ∧ t.length = 8 ∧ d.length < 256 ∧ 12 + (encName ls).length + 16 + d.length ≤ count ∧
      salvage (h.enc ++ (encName ls ++ rest)) count true =
        .ok (some ((salvaged h).enc ++ (encName ls ++ rest), 12 + (encName ls).length + 16 + d.length))) ∨
    (count < 12 + (encName ls).length + 16 ∧
      salvage (h.enc ++ (encName ls ++ rest)) count true = .ok (some ((salvaged h).enc ++ (encName ls ++ rest), count))) := by
  rw [salvage_eq]
  rw [if_pos hs]
  generalize hh : ({ h with ancount := 1, nscount := 0, arcount := 0 } : Header) = h'
  have hl := enc_length h'
  have hl0 := enc_length h
  have h2' : count ≤ (h'.enc ++ (encName ls ++ rest)).length := by
    simp only [List.length_append, hl, hl0] at h2 ⊢; exact h2
  rw [cut_question h' hok rest count h1 h2']
  by_cases hc : count < 12 + (encName ls).length + 16
  · rcases cut_record_short (h'.enc ++ (encName ls ++ rest)) (count - (encName ls).length) (12 + (encName ls).length) count h2' hc with
      e | e
    · exact Or.inr (Or.inr ⟨hc, by rw [e]; rfl⟩)
    · exact Or.inl (by rw [e]; rfl)
  · rcases cut_record (h'.enc ++ (encName ls ++ rest)) (count - (encName ls).length) (12 + (encName ls).length) count h2' (by omega)
      (by omega) with ⟨⟨r4, r5, r14, c', hc', hle⟩, c, hcc, e⟩ | ⟨-, e⟩
    · right; left
      have hget : ∀ i, (h'.enc ++ (encName ls ++ rest))[12 + (encName ls).length + i]? = rest[i]? := by
        intro i
        rw [List.getElem?_append_right (by omega), List.getElem?_append_right (by omega), hl]
        congr 1; omega
      rw [hget] at r4 r5 r14 hc' hcc
      have ecc : c = c' := by rw [hcc] at hc'; exact Option.some.inj hc'
      subst ecc
      have hrl : count ≤ 12 + (encName ls).length + rest.length := by
        simp only [List.length_append, hl] at h2'; omega
      have split1 : ∀ i x, rest[i]? = some x → rest.drop i = x :: rest.drop (i + 1) := by
        intro i x hx
        obtain ⟨hi, hv⟩ := List.getElem?_eq_some_iff.1 hx
        rw [List.drop_eq_getElem_cons hi, hv]
      have hd : ((rest.drop 16).take c.toNat).length = c.toNat := by
        rw [List.length_take, List.length_drop]; omega
      refine ⟨rest.take 4, (rest.drop 6).take 8, (rest.drop 16).take c.toNat, (rest.drop 16).drop c.toNat, ?_,
        by simp; omega, by simp; omega, by rw [hd]; exact c.toNat_lt, by rw [hd]; exact hle, by rw [e, hd]; rfl⟩
      rw [hd, List.take_append_drop, UInt8.ofNat_toNat]
      have e14 : [0, c] ++ rest.drop 16 = rest.drop 14 := by
        rw [split1 14 _ r14, split1 15 _ hcc]; rfl
      have e6 : (rest.drop 6).take 8 ++ rest.drop 14 = rest.drop 6 := by
        have : rest.drop 14 = (rest.drop 6).drop 8 := by rw [List.drop_drop]
        rw [this, List.take_append_drop]
      have e4 : [0xc0, 0x0c] ++ rest.drop 6 = rest.drop 4 := by
        rw [split1 4 _ r4, split1 5 _ r5]; rfl
      rw [e14, e6, e4, List.take_append_drop]
    · exact Or.inl (by rw [e]; rfl)

theorem cut_pointer (a : List UInt8) {ls : List (List UInt8)} (hok : LabelsOk ls) (n z x count : Nat) (c : UInt8) (rest : List UInt8)
    (hc : 63 < c.toNat) (hd : a.drop z = encLabels ls ++ c :: rest) (h1 : z + (encLabels ls).length < count) (h : count ≤ a.length)
    (hn : count ≤ z + n) : cut a n z 0 x count = .ok none := by
  induction ls generalizing z x n with
  | nil =>
    have hz : z < a.length := by simp [encLabels] at h1; omega
    obtain ⟨m, rfl⟩ : ∃ m, n = m + 1 := ⟨n - 1, by simp [encLabels] at h1; omega⟩
    have h0 : a[z] = c := by
      rw [List.drop_eq_getElem_cons hz] at hd
      simp only [encLabels, List.flatMap_nil, List.nil_append, List.cons.injEq] at hd
      exact hd.1
    rw [cut, if_pos (by omega), rd_ok hz]
    simp only [Res.ok_bind, h0]
    rw [if_pos trivial, if_pos hc]
  | cons l ls ih =>
    have hl := hok.head
    have el : encLabels (l :: ls) = UInt8.ofNat l.length :: (l ++ encLabels ls) := by simp [encLabels]
    have hlen : (encLabels (l :: ls)).length = l.length + 1 + (encLabels ls).length := by
      rw [el]; simp; omega
    have hz : z < a.length := by omega
    rw [el] at hd
    have hd' := hd
    rw [List.drop_eq_getElem_cons hz] at hd'
    simp only [List.cons_append, List.cons.injEq] at hd'
    have hc0 : a[z] ≠ 0 := by rw [hd'.1]; exact ofLen_ne hl.1 hl.2
    have hcl : a[z].toNat = l.length := by rw [hd'.1, UInt8.toNat_ofNat']; omega
    obtain ⟨m, rfl⟩ : ∃ m, n = (m + l.length) + 1 := ⟨n - 1 - l.length, by omega⟩
    rw [cut, if_pos (by omega), rd_ok hz]
    simp only [Res.ok_bind]
    rw [if_pos trivial, if_neg (by omega), if_neg hc0, hcl]
    obtain ⟨k, hk⟩ : ∃ k, l.length = k + 1 := ⟨l.length - 1, by omega⟩
    rw [hk, cut_skip a (Or.inl rfl) k _ (z + 1) count (by omega) h]
    refine ih hok.tail _ (z + 1 + (k + 1)) 0 ?_ (by omega) (by omega)
    have : a.drop (z + 1 + (k + 1)) = (a.drop (z + 1)).drop (k + 1) := by rw [List.drop_drop]
    rw [this, hd'.2, ← hk, List.append_assoc, List.drop_left']
    rfl

/-- **C46.** A truncated reply whose question is not a plain name (some label has a length
byte above 63, as a pointer has) is dropped. -/
theorem salvage_refuses_pointer (h : Header) (hs : Salvages h) {ls : List (List UInt8)} (hok : LabelsOk ls) (c : UInt8) (rest : List UInt8)
    (hc : 63 < c.toNat) (count : Nat) (h1 : 12 + (encLabels ls).length < count)
    (h2 : count ≤ (h.enc ++ (encLabels ls ++ c :: rest)).length) :
    salvage (h.enc ++ (encLabels ls ++ c :: rest)) count true = .ok none := by
  rw [salvage_eq, if_pos hs]
  generalize hh : ({ h with ancount := 1, nscount := 0, arcount := 0 } : Header) = h'
  have hl := enc_length h'
  have hl0 := enc_length h
  rw [cut_pointer _ hok count 12 0 count c rest hc (by rw [List.drop_left' hl]) h1
    (by simp only [List.length_append, hl, hl0] at h2 ⊢; exact h2) (by omega)]
  rfl

example : salvage ([1, 2, 0x82, 0, 0, 1, 0, 1, 0, 0, 0, 0] ++ [1, 97, 0xc0, 12, 0, 1, 0, 1, 0xc0, 12]) 22 true = .ok none := by decide +kernel

/-- What is missing in C46: a truncated reply that announces answers and has none is not
dropped; it goes on as a complete reply announcing one answer. -/
theorem salvage_accepts_missing_answer :
    ∃ packet, salvage packet packet.length true = .ok (some (packet.set 2 0x80, packet.length)) ∧
      packet = [1, 2, 0x82, 0, 0, 1, 0, 1, 0, 0, 0, 0] ++ ([1, 97, 0] ++ [0, 1, 0, 1]) :=
  ⟨_, by decide +kernel, rfl⟩

/-- C46 for a second client of the same question: the packet was cut for the first one, but
the length used for the second is again that of the whole packet, so that the second gets
the rest as well (here everything from `99` on). -/
theorem second_client_uncut :
    coreAll ⟨true, true, fun _ => 1, fun _ _ => 1⟩ 34 [⟨3, some 0, false⟩, ⟨4, some 1, false⟩] 0 true
      ([1, 2, 0x82, 0, 0, 1, 0, 2, 0, 0, 0, 0] ++ ([1, 97, 0] ++ [0, 1, 0, 1] ++
        [0xc0, 0x0c, 0, 1, 0, 1, 0, 0, 0, 9, 0, 1, 7] ++ [99, 99])) =
    .ok [.cache ([1, 2, 0x80, 0, 0, 1, 0, 1, 0, 0, 0, 0] ++ ([1, 97, 0] ++ [0, 1, 0, 1] ++
        [0xc0, 0x0c, 0, 1, 0, 1, 0, 0, 0, 9, 0, 1, 7])) false,
      .tcpReply ([0, 3, 0x80, 0, 0, 1, 0, 1, 0, 0, 0, 0] ++ ([1, 97, 0] ++ [0, 1, 0, 1] ++
        [0xc0, 0x0c, 0, 1, 0, 1, 0, 0, 0, 9, 0, 1, 7])) 0,
      .cache ([0, 3, 0x80, 0, 0, 1, 0, 1, 0, 0, 0, 0] ++ ([1, 97, 0] ++ [0, 1, 0, 1] ++
        [0xc0, 0x0c, 0, 1, 0, 1, 0, 0, 0, 9, 0, 1, 7] ++ [99, 99])) false,
      .tcpReply ([0, 4, 0x80, 0, 0, 1, 0, 1, 0, 0, 0, 0] ++ ([1, 97, 0] ++ [0, 1, 0, 1] ++
        [0xc0, 0x0c, 0, 1, 0, 1, 0, 0, 0, 9, 0, 1, 7] ++ [99, 99])) 1,
      .done] := by decide +kernel

/-! ## What a reply can do -/

theorem salvage_total (a : List UInt8) (count : Nat) (hack : Bool) (h : 12 ≤ count) (hc : count ≤ a.length) :
    ∃ r, salvage a count hack = .ok r ∧ ∀ a' k, r = some (a', k) → a'.length = a.length ∧ k ≤ count := by
  obtain ⟨hd, p, rfl⟩ := Hdr.header_of_bytes a (by omega)
  cases hack with
  | false =>
    refine ⟨some (hd.enc ++ p, count), ?_, by rintro a' k ⟨⟩; exact ⟨rfl, Nat.le_refl _⟩⟩
    unfold salvage
    rw [rd2, rd7]
    simp
  | true =>
    rw [salvage_eq]
    by_cases hs : Salvages hd
    · rw [if_pos hs]
      have hl : ({ hd with ancount := 1, nscount := 0, arcount := 0 }.enc ++ p).length = (hd.enc ++ p).length := by
        simp only [List.length_append, enc_length]
      obtain ⟨r, h1, h2⟩ := cut_total ({ hd with ancount := 1, nscount := 0, arcount := 0 }.enc ++ p) count 12 0 0 count (by omega)
      rw [h1]
      match r, h2 with
      | none, _ => exact ⟨none, rfl, by simp⟩
      | some k, h2 =>
        refine ⟨_, rfl, ?_⟩
        rintro a' k' ⟨⟩
        exact ⟨by simp only [List.length_append, enc_length], h2 k rfl⟩
    · rw [if_neg hs]
      exact ⟨_, rfl, by rintro a' k ⟨⟩; exact ⟨rfl, Nat.le_refl _⟩⟩

theorem core_total (e : Env) (a : List UInt8) (count : Nat) (lc : Local) (l : Nat) (hc : count ≤ a.length) :
    ∃ evs r a', core e a count lc l = .ok (evs, r, a') ∧ a'.length = a.length := by
  unfold core
  by_cases h12 : count < 12
  · rw [if_pos h12]
    exact ⟨_, _, _, rfl, rfl⟩
  · rw [if_neg h12]
    obtain ⟨r, h1, h2⟩ := salvage_total a count e.hack (by omega) hc
    rw [h1]
    simp only [Res.ok_bind]
    match r, h2 with
    | none, _ => exact ⟨_, _, _, rfl, rfl⟩
    | some (a', k), h2 =>
      obtain ⟨g1, g2⟩ := h2 a' k rfl
      simp only
      rw [rd_ok (by omega)]
      simp only [Res.ok_bind]
      have hans : ∀ evs, ∃ evs' r a'', core.answer e lc l evs a' k = .ok (evs', r, a'') ∧ a''.length = a.length := by
        intro evs
        unfold core.answer
        have hq : ∃ i b, Hdr.setDnsQid a' k lc.id = .ok (i, b) ∧ b.length = a'.length := by
          unfold Hdr.setDnsQid
          by_cases hk : k < 12
          · rw [if_pos hk]; exact ⟨_, _, rfl, rfl⟩
          · rw [if_neg hk]
            simp only [wr, if_pos (show 0 < a'.length by omega), Res.ok_bind, List.length_set, if_pos (show 1 < a'.length by omega)]
            exact ⟨_, _, rfl, by simp⟩
        obtain ⟨i, b, hb, hbl⟩ := hq
        rw [hb]
        simp only [Res.ok_bind]
        split_ifs <;> exact ⟨_, _, _, rfl, by omega⟩
      split_ifs
      all_goals first
        | exact ⟨_, _, _, rfl, g1⟩
        | exact hans _

theorem coreAll_total (e : Env) (count : Nat) (ls : List Local) (l : Nat) (kill : Bool) (a : List UInt8) (hc : count ≤ a.length) :
    ∃ evs, coreAll e count ls l kill a = .ok evs := by
  induction ls generalizing l kill a with
  | nil => exact ⟨_, rfl⟩
  | cons lc ls ih =>
    obtain ⟨evs, r, a', h1, h2⟩ := core_total e a count lc l hc
    rw [coreAll, h1]
    simp only [Res.ok_bind]
    by_cases hr : r = -1
    · rw [if_pos hr]; exact ⟨_, rfl⟩
    · rw [if_neg hr]
      obtain ⟨evs2, h3⟩ := ih (l + 1) (if r = 2 ∨ r = 3 then false else kill) a' (by omega)
      rw [h3]
      exact ⟨_, rfl⟩

theorem setQr (h : Header) (p : List UInt8) :
    wr (h.enc ++ p) 2 (flags1 h.qr h.opcode h.aa h.tc h.rd ||| 0x80) = .ok ({ h with qr := true }.enc ++ p) := by
  have f : ∀ (qr : Bool) (op : Fin 16) (aa tc rd : Bool), flags1 qr op aa tc rd ||| 0x80 = flags1 true op aa tc rd := by
    decide +kernel
  simp [wr, Header.enc, word, f]

/-- **C37.** A packet that comes back has an effect (on the cache, on a client, or on the
pending question) only if it belongs to the question that was sent; every other packet
leaves everything as it was.  And no packet makes the code leave its memory. -/
theorem reply_has_effect_only_if_matches {packet : List UInt8} {len rnd : Nat} {up : Bool} {sent : List UInt8} {p : Pending}
    (h12 : 12 ≤ len) (hlen : len ≤ packet.length) (hmax : len < 134217728) (hr : rnd < 65536)
    (h : sendQuery packet len rnd up = .ok (sent, p)) (e : Env) (locals : List Local) (a : List UInt8) (count : Nat)
    (hca : count ≤ a.length) :
    ∃ evs, getRemote e p locals a count = .ok evs ∧ (evs ≠ [] → Matches sent (a.take count)) := by
  unfold getRemote
  by_cases hc : count < 12 ∨ count > 512
  · rw [if_pos hc]
    exact ⟨[], rfl, fun hh => absurd rfl hh⟩
  · rw [if_neg hc]
    obtain ⟨h0, q, rfl⟩ := Hdr.header_of_bytes a (by omega)
    rw [rd2]
    simp only [Res.ok_bind]
    rw [setQr]
    simp only [Res.ok_bind]
    have hl : ({ h0 with qr := true }.enc ++ q).length = (h0.enc ++ q).length := by
      simp only [List.length_append, enc_length]
    obtain ⟨b, hb, hiff⟩ := verify_iff h12 hlen hmax hr h ({ h0 with qr := true }.enc ++ q) count (by omega) (by omega) (by omega)
    rw [hb]
    simp only [Res.ok_bind]
    by_cases hbt : b = true
    · rw [if_neg (not_not.2 hbt)]
      obtain ⟨evs, hev⟩ := coreAll_total e count locals 0 true ({ h0 with qr := true }.enc ++ q) (by omega)
      refine ⟨evs, hev, fun _ => ?_⟩
      obtain ⟨hs, hr', ls, ms, t0, t1, m1, m2, m3, ⟨rest, m4⟩, m5, m6, m7⟩ := hiff.1 hbt
      have ht : ∀ g : Header, (g.enc ++ q).take count = g.enc ++ q.take (count - 12) := by
        intro g
        rw [List.take_append, List.take_of_length_le (by rw [enc_length]; omega), enc_length]
      rw [ht] at m4
      obtain ⟨e1, e2, e3, e4, e5, e6⟩ := enc_parts m4
      refine ⟨hs, h0, ls, ms, t0, t1, m1, m2, m3, ⟨rest, by rw [ht, e6]⟩, e1.trans m5, m6, ?_⟩
      rw [← e2, ← e3, ← e4, ← e5] at m7
      exact m7
    · rw [if_pos hbt]
      exact ⟨[], rfl, fun hh => absurd rfl hh⟩

/-- A reply in other case to `aB. A`, ID 258. -/
example : (do
    let (_, p) ← sendQuery ([9, 9, 1, 0, 0, 1, 0, 0, 0, 0, 0, 0] ++ [2, 97, 66, 0, 0, 1, 0, 1]) 20 258 false
    getRemote ⟨true, false, fun _ => 1, fun _ _ => 1⟩ p [⟨7, none, false⟩]
      ([1, 2, 0, 0, 0, 1, 0, 0, 0, 0, 0, 0] ++ [2, 65, 98, 0, 0, 1, 0, 1]) 20) =
    .ok [.cache ([1, 2, 0x80, 0, 0, 1, 0, 0, 0, 0, 0, 0] ++ [2, 65, 98, 0, 0, 1, 0, 1]) false,
      .fromCache ([0, 7, 0x80, 0, 0, 1, 0, 0, 0, 0, 0, 0] ++ [2, 65, 98, 0, 0, 1, 0, 1]) 0, .done] := by decide +kernel

/-- The same reply with another ID. -/
example : (do
    let (_, p) ← sendQuery ([9, 9, 1, 0, 0, 1, 0, 0, 0, 0, 0, 0] ++ [2, 97, 66, 0, 0, 1, 0, 1]) 20 258 false
    getRemote ⟨true, false, fun _ => 1, fun _ _ => 1⟩ p [⟨7, none, false⟩]
      ([1, 3, 0, 0, 0, 1, 0, 0, 0, 0, 0, 0] ++ [2, 65, 98, 0, 0, 1, 0, 1]) 20) = .ok [] := by decide +kernel

end Remote
end Dw
