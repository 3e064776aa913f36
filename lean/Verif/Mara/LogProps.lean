import Verif.Mara.LogModel
import Verif.Mara.DecompProps
import Verif.Mara.FetchNames
import Verif.Mara.FetchText
import Verif.Mara.LookupLemmas
import Verif.Mara.PlainVia
import Verif.Spec.Log

/-!
# C119: what packets do to the log
-/

namespace Mara
namespace Log

open Dw (Res)
open Spec (ascii Name Parcel encName dotted LabelsOk be16 Legible memOf)
open Spec.Log (printable unescape shownName letters typeLetter)

/-! ## Escaping -/

/-- Everything about one byte that a table can tell. -/
theorem escByte_facts : ∀ c : UInt8, ((escByte c).all printable = true) ∧
    ((escByte c = [c] ∧ c ≠ 92) ∨ (escByte c = [92, c] ∧ ¬ (48 ≤ c ∧ c ≤ 55)) ∨
      ∃ x y z, escByte c = [92, x, y, z] ∧ (48 ≤ x ∧ x ≤ 55) ∧
        UInt8.ofNat ((x.toNat - 48) * 64 + (y.toNat - 48) * 8 + (z.toNat - 48)) = c) := by
  have table : ∀ n : Fin 256, ((escByte (UInt8.ofNat n)).all printable = true) ∧
    ((escByte (UInt8.ofNat n) = [UInt8.ofNat n] ∧ UInt8.ofNat n ≠ 92) ∨
      (escByte (UInt8.ofNat n) = [92, UInt8.ofNat n] ∧ ¬ (48 ≤ UInt8.ofNat n ∧ UInt8.ofNat n ≤ 55)) ∨
      (escByte (UInt8.ofNat n) = [92, UInt8.ofNat (48 + n / 64), UInt8.ofNat (48 + n / 8 % 8), UInt8.ofNat (48 + n % 8)] ∧
        (48 ≤ UInt8.ofNat (48 + n / 64) ∧ UInt8.ofNat (48 + n / 64) ≤ 55) ∧
        UInt8.ofNat (((UInt8.ofNat (48 + n / 64)).toNat - 48) * 64 + ((UInt8.ofNat (48 + n / 8 % 8)).toNat - 48) * 8 +
          ((UInt8.ofNat (48 + n % 8)).toNat - 48)) = UInt8.ofNat n)) := by decide +kernel
  intro c
  have h := table ⟨c.toNat, c.toNat_lt⟩
  simp only [UInt8.ofNat_toNat] at h
  refine ⟨h.1, ?_⟩
  rcases h.2 with h | h | h
  · exact Or.inl h
  · exact Or.inr (Or.inl h)
  · exact Or.inr (Or.inr ⟨_, _, _, h⟩)

/-- What is escaped can be printed, whatever it is: it has no end of a line in it, in particular. -/
theorem escaped_printable (l : List UInt8) : ∀ c ∈ showEsc l, printable c = true := by
  intro c hc
  obtain ⟨a, _, h⟩ := List.mem_flatMap.mp hc
  exact List.all_eq_true.mp (escByte_facts a).1 c h

theorem unescape_plain {c : UInt8} (h : c ≠ 92) (r : List UInt8) : unescape (c :: r) = c :: unescape r := by
  rw [unescape.eq_def]
  split <;> simp_all

theorem unescape_pair {c : UInt8} (h : ¬ (48 ≤ c ∧ c ≤ 55)) (r : List UInt8) : unescape (92 :: c :: r) = c :: unescape r := by
  rcases r with _ | ⟨a, _ | ⟨b, r⟩⟩
  · rw [unescape.eq_def]; rfl
  · rw [unescape.eq_def]; rfl
  · rw [unescape.eq_def]
    exact if_neg h

/-- What is escaped can be read back. -/
theorem escaped_readable (l : List UInt8) : unescape (showEsc l) = l := by
  induction l with
  | nil => rw [showEsc, List.flatMap_nil, unescape.eq_def]
  | cons c r ih =>
    rw [showEsc, List.flatMap_cons]
    rw [showEsc] at ih
    rcases (escByte_facts c).2 with ⟨h, hc⟩ | ⟨h, hc⟩ | ⟨x, y, z, h, hx, hv⟩
    · rw [h, List.singleton_append, unescape_plain hc, ih]
    · rw [h, List.cons_append, List.singleton_append, unescape_pair hc, ih]
    · rw [h, List.cons_append, List.cons_append, List.cons_append, List.singleton_append, unescape.eq_def]
      show (if 48 ≤ x ∧ x ≤ 55 then _ else _) = _
      rw [if_pos hx, hv, ih]

example : showEsc (ascii "50%\n\\") = ascii "50\\%\\012\\\\" := by decide +kernel

/-- Addresses are written as four numbers with dots between them. -/
theorem address_written (a b c d : UInt8) : ∃ w x y z, showIp a b c d = w ++ (ascii "." ++ (x ++ (ascii "." ++ (y ++ (ascii "." ++ z))))) ∧
    (∀ p ∈ [(w, a), (x, b), (y, c), (z, d)], Spec.ZoneText.NumOk p.1 ∧ Spec.ZoneText.value p.1 = p.2.toNat) := by
  have h : ∀ e : UInt8, Spec.ZoneText.NumOk (Fetch.dec e.toNat) ∧ Spec.ZoneText.value (Fetch.dec e.toNat) = e.toNat :=
    fun e => Fetch.dec_ok (by have := e.toNat_lt; omega)
  refine ⟨_, _, _, _, rfl, ?_⟩
  intro p hp
  simp only [List.mem_cons, List.not_mem_nil, or_false] at hp
  rcases hp with rfl | rfl | rfl | rfl <;> exact h _

example : showIp 192 0 2 10 = ascii "192.0.2.10" := by decide +kernel

/-! ## Packets that are refused -/

/-- A packet that cannot be decompressed is one line of the log, from which it can be read back. -/
theorem broken_one_line {level : Nat} (hl : 4 ≤ level) (stamp ip : List UInt8) (junk : UInt8) {raw : List UInt8}
    (he : Decomp.decompress raw 768 4512 = .err) : ∃ x, (∀ c ∈ x, printable c = true) ∧ unescape x = raw ∧
    packetLog level stamp ip junk raw = .ok (stamp ++ ascii " Log: Message received, processing\n" ++
      (stamp ++ (ascii "Query from " ++ (ip ++ (ascii "has decompression error: " ++ (x ++ ascii "\n")))))) := by
  refine ⟨showEsc raw, escaped_printable raw, escaped_readable raw, ?_⟩
  unfold packetLog
  simp only [he]
  rw [if_pos (by omega), if_pos hl]
  rfl

example : Decomp.decompress (ascii "\nLog: forged\n") 768 4512 = .err := by decide +kernel

/-- A packet for which there is an error is two lines of the log, and can be read back from the first. -/
theorem bad_two_lines (stamp ip raw : List UInt8) : ∃ x, (∀ c ∈ x, printable c = true) ∧ unescape x = raw ∧
    badLog stamp ip raw = stamp ++ (ascii " Log: Bad query received: " ++ (x ++ (ascii "\n" ++ (ascii "From IP: " ++ (ip ++ ascii "\n"))))) :=
  ⟨showEsc raw, escaped_printable raw, escaped_readable raw, rfl⟩

/-! ## Questions -/

theorem left_of_trLoop (junk : UInt8) : ∀ (n k : Nat) (t : UInt8) (l x : List UInt8), Fetch.trLoop junk n 46 k t l = some x →
    left junk n k t l = x
  | 0, _, _, _, _, h => by simp [Fetch.trLoop] at h
  | n + 1, k, t, l, x, h => by
    unfold Fetch.trLoop at h
    unfold left
    split at h
    · rename_i hc
      rw [if_pos hc]
      split at h
      · cases h
      · rename_i h1
        rw [if_neg h1]
        simp only at h ⊢
        split at h
        · cases h
        · rename_i h2
          rw [if_neg h2]
          exact left_of_trLoop junk n _ _ _ x h
    · rename_i hc
      rw [if_neg hc]
      exact Option.some.inj h

theorem shown_of_hname {junk first : UInt8} {l x : List UInt8} (h : Fetch.hname junk first l = some x) : shown junk first l = x := by
  unfold Fetch.hname at h
  unfold shown
  split at h
  · cases h
  · exact Option.some.inj h
  · rename_i hn
    split
    · rename_i he; cases he
    · rename_i he; cases he; exact absurd rfl (hn · rfl)
    · rename_i he; cases he; exact left_of_trLoop _ _ _ _ _ _ h

theorem letter_eq (t : Nat) : letter (some t) = typeLetter t := by
  unfold letter typeLetter letters
  split
  all_goals first | (rename_i h; cases h; rfl) | skip
  rename_i h1 h2 h3 h4 h5 h6 h7 h8
  have q : ∀ k, (some t = some k → False) → (t == k) = false := by
    intro k h
    simpa using fun e => h (congrArg some e)
  simp [List.lookup, q _ h1, q _ h2, q _ h3, q _ h4, q _ h5, q _ h6, q _ h7, q _ h8]

/-- The question for a name and a type is logged with the letter of the type and the labels as they are, with dots behind them. -/
theorem query_logged {p : Parcel} (hp : p.Ok) {raw : List UInt8} (hc : p.Via (Legible (memOf raw)) raw) (hb : p.bytes.length < 768)
    {n : Name} {a b : UInt8} {cls : List UInt8} (hq : p.question = some (n, a :: b :: cls)) (hl : LabelsOk n)
    (hs : (encName n).length ≤ 255) {level : Nat} (h3 : 3 ≤ level) (h5 : level < 5) (stamp ip : List UInt8) (junk : UInt8) :
    packetLog level stamp ip junk raw = .ok (stamp ++ ascii " Log: Message received, processing\n" ++
      (stamp ++ (ascii "Query from: " ++ (ip ++ (ascii " " ++ (typeLetter (a.toNat * 256 + b.toNat) :: shownName n ++ ascii "\n")))))) := by
  have hrm : ∀ r ∈ p.recs, r.rdata.length < 4512 := by
    intro r hr
    have h1 : ((p.recs.map Spec.Rec.toRR).flatMap Spec.RR.enc).length ≤ p.bytes.length := by
      unfold Parcel.bytes; simp only [List.length_append]; omega
    have h2 : (Spec.RR.enc r.toRR).length ≤ ((p.recs.map Spec.Rec.toRR).flatMap Spec.RR.enc).length :=
      (List.sublist_flatten_of_mem (List.mem_map_of_mem (List.mem_map_of_mem hr))).length_le
    have h3 : r.rdata.length ≤ (Spec.RR.enc r.toRR).length := by
      simp [Spec.RR.enc, Spec.Rec.toRR]
      omega
    omega
  have hd := Decomp.decompress_exact hp hc (um := 768) (rm := 4512) hb hrm
  have hbytes : p.bytes = p.head ++ (encName n ++ (a :: b :: cls ++ (p.recs.map Spec.Rec.toRR).flatMap Spec.RR.enc)) := by
    unfold Parcel.bytes; rw [hq]; simp
  have hpos : 1 ≤ (encName n).length := Nat.lt_of_le_of_lt (Nat.zero_le _) (Fetch.labels_lt n)
  have hdl : Lookup.dlabel p.bytes 12 256 0 = some (encName n).length := by
    rw [hbytes]
    have := Lookup.dlabel_name hl p.head (a :: b :: cls ++ (p.recs.map Spec.Rec.toRR).flatMap Spec.RR.enc) 12 256 0
      (by rw [hp.head]) (Nat.lt_of_lt_of_le (Fetch.labels_lt n) (by omega)) (by omega)
    rw [this, Nat.zero_add]
  have hty : typeAt p.bytes (12 + (encName n).length) = some (a.toNat * 256 + b.toNat) := by
    have e : ∀ i, p.bytes[12 + (encName n).length + i]? = (a :: b :: cls ++ (p.recs.map Spec.Rec.toRR).flatMap Spec.RR.enc)[i]? := by
      intro i
      rw [hbytes, List.getElem?_append_right (by rw [hp.head]; omega), List.getElem?_append_right (by rw [hp.head]; omega)]
      congr 1
      rw [hp.head]; omega
    unfold typeAt
    rw [e 1, show 12 + (encName n).length = 12 + (encName n).length + 0 from rfl, e 0]
    rfl
  have hname : (p.bytes.drop 12).take (encName n).length = encName n := by
    rw [hbytes, ← hp.head, List.drop_left, List.take_left]
  have hsh : ∀ f, shown junk f (encName n) = f :: shownName n := fun f => shown_of_hname (Fetch.hname_run junk f hl (by omega))
  unfold packetLog
  simp only [hd]
  rw [if_pos h3, if_neg (by omega), if_pos ⟨h3, by rw [hbytes]; simp only [List.length_append, hp.head, List.length_cons]; omega⟩]
  unfold queryLine
  rw [hdl]
  simp only
  rw [hty, hname, hsh, letter_eq]
  rfl

theorem line_printable {n : Name} (hn : ∀ l ∈ n, ∀ c ∈ l, printable c = true) (t : Option Nat) :
    ∀ c ∈ letter t :: shownName n, printable c = true := by
  intro c hc
  rcases List.mem_cons.mp hc with rfl | hc
  · unfold letter
    split <;> decide
  · unfold shownName at hc
    split at hc
    · have : c = 46 := by simpa [ascii] using hc
      rw [this]; decide
    · unfold dotted at hc
      obtain ⟨l, hl, h⟩ := List.mem_flatMap.mp hc
      rcases List.mem_append.mp h with h | h
      · exact hn l hl c h
      · rw [List.mem_singleton.mp h]; decide

/-- Where all bytes of the labels can be printed, the question is one line.  The full statement, for all questions, is false
(`query_forged`). -/
theorem query_one_line_partial {p : Parcel} (hp : p.Ok) {raw : List UInt8} (hc : p.Via (Legible (memOf raw)) raw) (hb : p.bytes.length < 768)
    {n : Name} {a b : UInt8} {cls : List UInt8} (hq : p.question = some (n, a :: b :: cls)) (hl : LabelsOk n)
    (hs : (encName n).length ≤ 255) {level : Nat} (h3 : 3 ≤ level) (h5 : level < 5) (stamp ip : List UInt8) (junk : UInt8)
    (hn : ∀ l ∈ n, ∀ c ∈ l, printable c = true) : ∃ x, (∀ c ∈ x, printable c = true) ∧
    packetLog level stamp ip junk raw = .ok (stamp ++ ascii " Log: Message received, processing\n" ++
      (stamp ++ (ascii "Query from: " ++ (ip ++ (ascii " " ++ (x ++ ascii "\n")))))) :=
  ⟨_, letter_eq _ ▸ line_printable hn _, query_logged hp hc hb hq hl hs h3 h5 stamp ip junk⟩

/-- A question that has a line of text as its name. -/
def forgery (x : List UInt8) : Parcel := ⟨[171, 205, 0, 0, 0, 1, 0, 0, 0, 0, 0, 0], some ([10 :: (x ++ [10])], [0, 1, 0, 1]), []⟩

theorem forgery_ok (x : List UInt8) : (forgery x).Ok :=
  ⟨rfl, (show Parcel.count [171, 205, 0, 0, 0, 1, 0, 0, 0, 0, 0, 0] 4 = 1 by decide +kernel), (by intro y hy; cases hy; rfl),
    (show 0 = Parcel.count [171, 205, 0, 0, 0, 1, 0, 0, 0, 0, 0, 0] 6 + Parcel.count [171, 205, 0, 0, 0, 1, 0, 0, 0, 0, 0, 0] 8 +
      Parcel.count [171, 205, 0, 0, 0, 1, 0, 0, 0, 0, 0, 0] 10 by decide +kernel),
    (by intro r hr; cases hr), (by intro r hr; cases hr), (by intro r hr; cases hr)⟩

/-- Whoever can send a packet can write any line of at most 61 bytes to the log. -/
theorem query_forged (x : List UInt8) (hx : x.length ≤ 61) : ∃ raw : List UInt8, raw.length ≤ 81 ∧
    ∀ (level : Nat), 3 ≤ level → level < 5 → ∀ (stamp ip : List UInt8) (junk : UInt8), ∃ before after,
      packetLog level stamp ip junk raw = .ok (before ++ ascii "\n" ++ x ++ ascii "\n" ++ after) := by
  have hlab : LabelsOk [10 :: (x ++ [10])] := by
    intro l hl
    rw [List.mem_singleton.mp hl]
    simp only [List.length_cons, List.length_append, List.length_nil]
    omega
  have hlen : (encName [10 :: (x ++ [10])]).length = x.length + 4 := by
    have : (encName []).length = 1 := rfl
    simp [Spec.encName_cons, this]
  have hsh : PlainVia.Short [10 :: (x ++ [10])] := ⟨hlab, by rw [hlen]; omega⟩
  have hb : (forgery x).bytes.length = x.length + 20 := by
    show ([171, 205, 0, 0, 0, 1, 0, 0, 0, 0, 0, 0] ++ (encName [10 :: (x ++ [10])] ++ [0, 1, 0, 1]) ++ [] : List UInt8).length = _
    simp only [List.length_append, hlen, List.length_cons, List.length_nil]
    omega
  refine ⟨(forgery x).bytes, by rw [hb]; omega, fun level h3 h5 stamp ip junk =>
    ⟨stamp ++ ascii " Log: Message received, processing\n" ++ (stamp ++ (ascii "Query from: " ++ (ip ++ ascii " A"))), ascii ".\n", ?_⟩⟩
  rw [query_logged (forgery_ok x) (PlainVia.plain_via (forgery_ok x) (by intro y hy; cases hy; exact hsh) (by intro r hr; cases hr))
    (by rw [hb]; omega) (n := [10 :: (x ++ [10])]) (a := 0) (b := 1) (cls := [0, 1]) rfl hlab hsh.2 h3 h5]
  have e1 : ascii "\n" = [10] := by decide
  have e2 : ascii " " = [32] := by decide
  have e3 : ascii " A" = [32, 65] := by decide
  have e4 : ascii ".\n" = [46, 10] := by decide
  have e5 : typeLetter ((0 : UInt8).toNat * 256 + (1 : UInt8).toNat) = 65 := by decide
  rw [e1, e2, e3, e4, e5]
  simp [shownName, dotted]

/-- A line that says that all is well. -/
example : ∃ raw, packetLog 3 (ascii "Timestamp: 1 ") (showIp 10 0 0 7) 0 raw =
    .ok (ascii "Timestamp: 1  Log: Message received, processing\nTimestamp: 1 Query from: 10.0.0.7 A\nTimestamp: 2 Query from: 10.0.0.8 Aa.com.\n.\n") :=
  ⟨(forgery (ascii "Timestamp: 2 Query from: 10.0.0.8 Aa.com.")).bytes, by decide +kernel⟩

/-- An ordinary question. -/
example : packetLog 3 (ascii "T ") (showIp 192 0 2 1) 0
    ([171, 205, 0, 0, 0, 1, 0, 0, 0, 0, 0, 0] ++ encName [ascii "www", ascii "example", ascii "com"] ++ [0, 15, 0, 1]) =
    .ok (ascii "T  Log: Message received, processing\nT Query from: 192.0.2.1 @www.example.com.\n") := by decide +kernel

/-- With more to be logged, the packet as it was understood is a line in front of the question. -/
theorem query_logged_more {raw u : List UInt8} (hd : Decomp.decompress raw 768 4512 = .ok u) {level : Nat} (h5 : 5 ≤ level) (stamp ip : List UInt8)
    (junk : UInt8) {rest : List UInt8} (h3 : packetLog 3 stamp ip junk raw = .ok (stamp ++ ascii " Log: Message received, processing\n" ++ rest)) :
    ∃ x, (∀ c ∈ x, printable c = true) ∧ unescape x = u ∧
      packetLog level stamp ip junk raw = .ok (stamp ++ ascii " Log: Message received, processing\n" ++
        (stamp ++ (ascii "Decompressed packet: " ++ (x ++ ascii "\n")) ++ rest)) := by
  refine ⟨showEsc u, escaped_printable u, escaped_readable u, ?_⟩
  unfold packetLog at h3 ⊢
  simp only [hd] at h3 ⊢
  rw [if_pos (by omega), if_neg (by omega)] at h3
  have h := List.append_cancel_left (Res.ok.inj h3)
  rw [if_pos (by omega), if_pos h5, ← h]
  simp only [ge_iff_le, show (3 ≤ level) = True by simp; omega, true_and, Nat.le_refl, List.nil_append]
  rfl

/-- What is logged of an ordinary question when most is to be logged. -/
example : packetLog 5 (ascii "T ") (showIp 192 0 2 1) 0
    ([171, 205, 0, 0, 0, 1, 0, 0, 0, 0, 0, 0] ++ encName [ascii "a", ascii "com"] ++ [0, 1, 0, 1]) =
    .ok (ascii "T  Log: Message received, processing\nT Decompressed packet: \\253\\315\\000\\000\\000\\001\\000\\000\\000\\000\\000\\000\\001a\\003com\\000\\000\\001\\000\\001\nT Query from: 192.0.2.1 Aa.com.\n") := by
  decide +kernel

/-- Nothing is logged of questions at the lower levels. -/
theorem quiet {level : Nat} (h : level < 3) (stamp ip : List UInt8) (junk : UInt8) {raw x : List UInt8} (hx : packetLog level stamp ip junk raw = .ok x) :
    x = [] := by
  unfold packetLog at hx
  simp only at hx
  rw [if_neg (by omega)] at hx
  split at hx
  · cases hx
  · rw [if_neg (by omega)] at hx
    exact (Res.ok.inj hx).symm
  · rw [if_neg (by omega), if_neg (by omega)] at hx
    exact (Res.ok.inj hx).symm

example : packetLog 2 (ascii "T ") (showIp 192 0 2 1) 0
    ([171, 205, 0, 0, 0, 1, 0, 0, 0, 0, 0, 0] ++ encName [ascii "a", ascii "com"] ++ [0, 1, 0, 1]) = .ok [] := by decide +kernel

end Log
end Mara
