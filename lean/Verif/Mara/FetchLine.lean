import Verif.Mara.FetchNames
/-!
# The lines that fetchzone prints

For a record as in `Spec.Transfer.Plain`, the line is one of a zone file that says this record.
-/

namespace Mara
namespace Fetch

open Spec (ascii Name encName dotted lower LabelsOk encName_cons dotted_cons Rec rdLayout)
open Spec.ZoneText
open Spec.Transfer (PlainName Plain DataOk isStar base toLine num32At)

theorem ascii_facts : ascii " +" = [32, 43] ∧ ascii " ~ \n" = [32, 126, 32, 10] ∧ ascii " raw " = 32 :: (ascii "raw" ++ [32]) ∧
    ascii " a " = 32 :: (ascii "a" ++ [32]) ∧ ascii " aaaa " = 32 :: (ascii "aaaa" ++ [32]) ∧ ascii " mx " = 32 :: (ascii "mx" ++ [32]) ∧
    ascii " txt " = 32 :: (ascii "txt" ++ [32]) ∧ ascii " soa" = 32 :: ascii "soa" ∧ ascii " ns" = 32 :: ascii "ns" ∧
    ascii " ptr" = 32 :: ascii "ptr" ∧ ascii " cname" = 32 :: ascii "cname" := by decide +kernel

/-- One space. -/
def sp : Gap := ⟨.blank 32, []⟩

theorem sp_ok : sp.Ok := ⟨.inr (.inr (.inr rfl)), fun _ h => (by cases h), by decide, by decide⟩

theorem sp_text : sp.text = [32] := rfl

/-- The name of a record. -/
def owner (n : Name) : NameText := ⟨isStar n, base n, false⟩

/-- A name in the data. -/
def inner (n : Name) : NameText := ⟨false, n, false⟩

theorem inner_text (n : Name) : (inner n).text = dotted n := by simp [inner, NameText.text]

theorem inner_name (n : Name) (o : Name) : (inner n).name o = n := by simp [inner, NameText.name]

theorem plainName_labels {n : Name} (h : PlainName n) : LabelsOk n := fun l hl => ⟨(h.2 l hl).1, (h.2 l hl).2.1⟩

theorem plain_not_slash {c : UInt8} (h : isPlain c = true) : c ≠ 47 ∧ c ≠ 42 := by
  have : ∀ n : Fin 256, isPlain (UInt8.ofNat n) = true → UInt8.ofNat n ≠ 47 ∧ UInt8.ofNat n ≠ 42 := by decide +kernel
  have := this ⟨c.toNat, c.toNat_lt⟩
  simp only [UInt8.ofNat_toNat] at this
  exact this h

theorem dotted_head {n : Name} (h : PlainName n) : ∃ c r, dotted n = c :: r ∧ isPlain c = true := by
  match n, h with
  | (c :: l) :: n, h => exact ⟨c, l ++ 46 :: dotted n, by rw [dotted_cons]; rfl, (h.2 _ List.mem_cons_self).2.2 c List.mem_cons_self⟩
  | [] :: n, h => exact absurd (h.2 _ List.mem_cons_self).1 (by simp)
  | [], h => exact absurd rfl h.1

theorem inner_ok {n : Name} (h : PlainName n) (hs : (encName n).length ≤ 255) (o : Name) : (inner n).Ok o := by
  obtain ⟨c, r, he, hc⟩ := dotted_head h
  refine ⟨fun l hl => ⟨(h.2 l hl).1, (h.2 l hl).2.1, fun c hc => .inl ((h.2 l hl).2.2 c hc)⟩, ?_, ?_, ?_⟩
  · rw [inner_text, he]
    intro h'
    injection h' with h'
    exact (plain_not_slash hc).1 h'
  · rw [inner_text, he]; simp
  · rw [inner_name]; simpa [inner] using hs

theorem name_eq (n : Name) : n = (if isStar n then [[42]] else []) ++ base n := by
  unfold base
  cases h : isStar n with
  | false => rfl
  | true =>
    match n, h with
    | a :: n, h =>
      unfold isStar at h
      simp at h
      subst h
      rfl

theorem owner_ok {n : Name} (h : PlainName (base n)) (hs : (encName n).length ≤ 255) (o : Name) : (owner n).Ok o := by
  obtain ⟨c, r, he, hc⟩ := dotted_head h
  refine ⟨fun l hl => ⟨(h.2 l hl).1, (h.2 l hl).2.1, fun c hc => .inl ((h.2 l hl).2.2 c hc)⟩, ?_, ?_, ?_⟩
  · unfold NameText.text owner
    dsimp only
    cases isStar n with
    | true => simp
    | false =>
      rw [he]
      intro h'
      simp at h'
      exact (plain_not_slash hc).1 h'
  · unfold NameText.text owner
    dsimp only
    rw [he]
    simp
  · have := name_eq n
    have hn : (owner n).name o = base n := by simp [owner, NameText.name]
    rw [hn]
    rw [this] at hs
    unfold owner
    dsimp only
    cases hst : isStar n with
    | true =>
      rw [hst] at hs
      simp only [if_true, List.cons_append, List.nil_append] at hs ⊢
      rw [encName_cons] at hs
      simp at hs
      omega
    | false => rw [hst] at hs; simpa using hs

/-- How the name is printed. -/
theorem owner_text {n : Name} (h : PlainName (base n)) : safeEsc (dotted n) = (owner n).text := by
  unfold NameText.text owner
  dsimp only
  have := name_eq n
  cases hs : isStar n with
  | true =>
    rw [hs] at this
    simp only [if_true, List.cons_append, List.nil_append] at this
    conv_lhs => rw [this]
    rw [safeEsc_star h]
    simp
  | false =>
    rw [hs] at this
    simp only [Bool.false_eq_true, if_false, List.nil_append] at this
    conv_lhs => rw [this]
    rw [safeEsc_plain (dotted_plain fun l hl => (h.2 l hl).2.2)]
    simp

theorem name_ok {n : Name} (h : PlainName (base n)) : LabelsOk n ∧ n ≠ [] := by
  have := name_eq n
  refine ⟨?_, ?_⟩
  · rw [this]
    intro l hl
    rcases List.mem_append.1 hl with hl | hl
    · cases hs : isStar n with
      | true => rw [hs] at hl; cases List.mem_singleton.1 hl; decide
      | false => rw [hs] at hl; cases hl
    · exact plainName_labels h l hl
  · intro h0
    rw [h0] at h
    exact h.1 rfl

/-- The line `out` says the record `r`. -/
def LineFor (r : Rec) (out : List UInt8) : Prop :=
  ∃ L : Line, out = L.text ++ ascii " ~ \n" ∧ (∀ c, L.Ok c (.blank 32)) ∧ (∀ serial c, step serial c L = (c, [toLine r])) ∧
    (L.isFree = true → r.type = 16) ∧ L.isPush = false ∧ L.isRecord = true

theorem opening_eq {n : Name} (h : PlainName (base n)) (hs : (encName n).length ≤ 255) (junk first : UInt8) :
    ∃ m, hname junk first (encName n) = some m ∧ ∀ ttl, opening m ttl = (owner n).text ++ [32, 43] ++ dec ttl := by
  refine ⟨_, hname_run junk first (name_ok h).1 (by omega), fun ttl => ?_⟩
  unfold opening
  rw [if_neg (name_ok h).2, List.tail_cons, owner_text h, ascii_facts.1]

/-- Where the `body` says type and data, the line says the record. -/
theorem lineFor_body {r : Rec} (hp : Plain r) (hs : (encName r.name).length ≤ 255) (body : Body)
    (hb : ∀ ip, body ≠ .bare ip) (hok : ∀ o, body.Ok o (.blank 32)) (ht : body.type = r.type) (hd : ∀ o s, body.data o s = r.rdata)
    (hf : body.isFree = true → r.type = 16) {x : List UInt8} (hx : x = body.text) :
    LineFor r ((owner r.name).text ++ [32, 43] ++ dec r.ttl ++ [32] ++ x ++ ascii " ~ \n") := by
  obtain ⟨h1, h2⟩ := dec_ok hp.ttl
  refine ⟨.record (owner r.name) sp (some (dec r.ttl, sp)) [] body, ?_, ?_, ?_, hf, rfl, rfl⟩
  · rw [hx]
    simp [Line.text, sp_text]
  · intro c
    refine ⟨owner_ok hp.name hs _, fun h => (by cases h), sp_ok, ?_, fun _ h => (by cases h), fun ⟨ip, h⟩ => absurd h (hb ip), hok _⟩
    intro x hx
    cases hx
    exact ⟨h1, sp_ok⟩
  · intro serial c
    simp only [step, ht, hd, h2, toLine, owner, NameText.name, Bool.false_eq_true, if_false, List.append_nil]

/-! ## The types -/

theorem says_facts : Says (ascii "raw") "raw" ∧ Says (ascii "a") "a" ∧ Says (ascii "aaaa") "aaaa" ∧ Says (ascii "txt") "txt" ∧
    Says (ascii "mx") "mx" ∧ Says (ascii "soa") "soa" := by
  unfold Says
  decide +kernel

theorem raw_line {r : Rec} (hp : Plain r) (hs : (encName r.name).length ≤ 255) (ht : r.type < 65536)
    (hty : r.type ∉ [255, 251, 252, 253, 254, 38, 39, 41]) (junk : UInt8) (a b soa : Nat) :
    ∃ x, raw junk ⟨encName r.name, r.type, r.ttl, a, b⟩ r.rdata soa = (x, .more soa) ∧ LineFor r x := by
  obtain ⟨m, hm, ho⟩ := opening_eq hp.name hs junk 65
  obtain ⟨x, h1, h2, h3, h4⟩ := escape_str r.rdata
  obtain ⟨h5, h6⟩ := dec_ok (n := r.type) (by omega)
  have := lineFor_body hp hs (.raw (ascii "raw") sp (dec r.type) sp x) (fun _ h => (by cases h)) ?_ h6 (fun _ _ => h3) (fun h => (by cases h)) rfl
  · refine ⟨_, ?_, this⟩
    unfold raw
    simp only [hm, ho, ascii_facts.2.2.1, Body.text, sp_text, h2]
    simp
  · have := hp.short
    exact fun o => ⟨says_facts.1, sp_ok, h5, by omega, by rw [h6]; exact hty, sp_ok, h1, by rw [h2]; exact escape_some hp.some,
      by rw [h3]; exact hp.short, by rw [h2]; omega, rfl⟩

theorem ip4_ok (a b c d : UInt8) : Ip4.Ok ⟨dec a.toNat, dec b.toNat, dec c.toNat, dec d.toNat⟩ ∧
    Ip4.data ⟨dec a.toNat, dec b.toNat, dec c.toNat, dec d.toNat⟩ = [a, b, c, d] := by
  have hb : ∀ x : UInt8, x.toNat ≤ 2147483647 := fun x => by have := x.toNat_lt; omega
  have hl : ∀ x : UInt8, (dec x.toNat).length ≤ 20 := fun x => dec_length (by have := x.toNat_lt; omega)
  refine ⟨⟨?_, ?_⟩, ?_⟩
  · have := hl a; have := hl b; have := hl c; have := hl d
    simp only [Ip4.text, List.length_append, List.length_cons]
    omega
  · have : ∀ x : UInt8, dec x.toNat ≠ [] ∧ (∀ c ∈ dec x.toNat, isDigit c = true) ∧ value (dec x.toNat) ≤ 255 := fun x =>
      ⟨(dec_ok (hb x)).1.some, (dec_ok (hb x)).1.digits, by rw [(dec_ok (hb x)).2]; have := x.toNat_lt; omega⟩
    intro l hl
    simp only [List.mem_cons, List.not_mem_nil, or_false] at hl
    rcases hl with rfl | rfl | rfl | rfl <;> exact this _
  · simp [Ip4.data, (dec_ok (hb _)).2]

theorem a_line {r : Rec} (hp : Plain r) (hs : (encName r.name).length ≤ 255) (ht : r.type = 1) {a b c d : UInt8} (hd : r.rdata = [a, b, c, d])
    (junk : UInt8) (e f soa : Nat) :
    ∃ x, aLine junk ⟨encName r.name, r.type, r.ttl, e, f⟩ r.rdata soa = (x, .more soa) ∧ LineFor r x := by
  obtain ⟨m, hm, ho⟩ := opening_eq hp.name hs junk 65
  obtain ⟨h1, h2⟩ := ip4_ok a b c d
  have := lineFor_body hp hs (.addr (ascii "a") ("a", 1) sp ⟨dec a.toNat, dec b.toNat, dec c.toNat, dec d.toNat⟩) (fun _ h => (by cases h))
    (fun o => ⟨by decide, says_facts.2.1, sp_ok, h1⟩) ht.symm (fun _ _ => by rw [hd]; exact h2) (fun h => (by cases h)) rfl
  refine ⟨_, ?_, this⟩
  rw [hd]
  unfold aLine
  simp only [hm, ho, ascii_facts.2.2.2.1, Body.text, sp_text, Ip4.text]
  simp

theorem aaaa_line {r : Rec} (hp : Plain r) (hs : (encName r.name).length ≤ 255) (ht : r.type = 28)
    (junk : UInt8) (e f soa : Nat) :
    ∃ x, aaaaLine junk ⟨encName r.name, r.type, r.ttl, e, f⟩ r.rdata soa = (x, .more soa) ∧ LineFor r x := by
  unfold aaaaLine
  by_cases hd : r.rdata.length = 16
  · obtain ⟨m, hm, ho⟩ := opening_eq hp.name hs junk 85
    obtain ⟨h1, h2, h3, h4⟩ := groupList_ok r.rdata (by omega)
    have := lineFor_body hp hs (.addr6 (ascii "aaaa") ("aaaa", 28) sp (.trail (groupList r.rdata))) (fun _ h => (by cases h))
      (fun o => ⟨by decide, says_facts.2.2.1, sp_ok, by omega, h1⟩) ht.symm (fun _ _ => h2) (fun h => (by cases h)) rfl
    refine ⟨_, ?_, this⟩
    rw [if_neg (by simp [hd])]
    simp only [hm, ho, ascii_facts.2.2.2.2.1, Body.text, sp_text, Ip6.text, h4 hp.some]
    simp
  · rw [if_pos hd]
    exact raw_line hp hs (by omega) (by rw [ht]; decide) junk e f soa

theorem txt_line {r : Rec} (hp : Plain r) (hs : (encName r.name).length ≤ 255) (ht : r.type = 16) (h0 : r.rdata ≠ [0])
    (junk : UInt8) (e f soa : Nat) :
    ∃ x, txtLine junk ⟨encName r.name, r.type, r.ttl, e, f⟩ r.rdata soa = (x, .more soa) ∧ LineFor r x := by
  have hraw := raw_line hp hs (by omega) (by rw [ht]; decide) junk e f soa
  unfold txtLine
  split
  · rename_i h; exact absurd h hp.some
  · rename_i c d hd
    by_cases hc : c.toNat = d.length
    · rw [if_neg (by simp [hc])]
      obtain ⟨m, hm, ho⟩ := opening_eq hp.name hs junk 84
      obtain ⟨x, h1, h2, h3, h4⟩ := escape_str d
      have hd0 : d ≠ [] := by
        intro h'
        subst h'
        apply h0
        rw [hd, ← UInt8.ofNat_toNat (x := c), hc]
        rfl
      have hlt := c.toNat_lt
      have hb : strData x = c :: d := by rw [strData, h3, ← hc, UInt8.ofNat_toNat]
      have := lineFor_body hp hs (.strs (ascii "txt") ("txt", 16) sp [x]) (fun _ h => (by cases h)) ?_ ht.symm ?_ (fun _ => ht) rfl
      · refine ⟨_, ?_, this⟩
        simp only [hm, ho, ascii_facts.2.2.2.2.2.2.1, Body.text, sp_text, strsText, h2]
        simp
      · intro o
        refine ⟨by decide, says_facts.2.2.2.1, sp_ok, ⟨?_, ?_, ?_, ?_, ?_⟩⟩
        · intro s hs b hb'
          cases List.mem_singleton.1 hs
          exact h1 b hb'
        · intro s hs
          cases List.mem_singleton.1 hs
          rw [h3]; omega
        · rw [strsText, h2]; exact escape_some hd0
        · simp only [List.flatMap_cons, List.flatMap_nil, List.append_nil, hb, List.length_cons]; omega
        · rw [strsText, h2]; omega
      · intro _ _
        simp only [Body.data, List.flatMap_cons, List.flatMap_nil, List.append_nil, hb, hd]
    · rw [if_pos hc]
      exact hraw

theorem inner_esc {n : Name} (h : PlainName n) : safeEsc (32 :: dotted n) = 32 :: (inner n).text := by
  rw [inner_text, safeEsc_space (dotted_plain fun l hl => (h.2 l hl).2.2)]

theorem name_line {r : Rec} (hp : Plain r) (hs : (encName r.name).length ≤ 255) {w : String} (hw : (w, r.type) ∈ nameTypes) {w' : String}
    (hw' : ascii w' = 32 :: ascii w) (hlow : (ascii w).map lower = ascii w) {n : Name} (hn : PlainName n) (hns : (encName n).length ≤ 255) (hd : r.rdata = encName n) (junk : UInt8) (e f soa : Nat) :
    ∃ x, nameLine junk w' ⟨encName r.name, r.type, r.ttl, e, f⟩ r.rdata soa = (x, .more soa) ∧ LineFor r x := by
  obtain ⟨m, hm, ho⟩ := opening_eq hp.name hs junk 65
  have := lineFor_body hp hs (.name (ascii w) (w, r.type) sp (inner n)) (fun _ h => (by cases h))
    (fun o => ⟨hw, hlow, sp_ok, ⟨inner_ok hn hns o, rfl, fun h => (by cases h)⟩⟩) rfl (fun o _ => by rw [Body.data, inner_name, hd]) (fun h => (by cases h)) rfl
  refine ⟨_, ?_, this⟩
  unfold nameLine
  rw [hd, hname_run junk 65 (plainName_labels hn) (by omega), if_neg hn.1]
  simp only [hm, ho, hw', List.tail_cons, inner_esc hn, Body.text, sp_text]
  simp

theorem mx_line {r : Rec} (hp : Plain r) (hs : (encName r.name).length ≤ 255) (ht : r.type = 15) {a b : UInt8} {n : Name} (hn : PlainName n)
    (hns : (encName n).length ≤ 253) (hd : r.rdata = [a, b] ++ encName n) (junk : UInt8) (e f soa : Nat) :
    ∃ x, mxLine junk ⟨encName r.name, r.type, r.ttl, e, f⟩ r.rdata soa = (x, .more soa) ∧ LineFor r x := by
  obtain ⟨m, hm, ho⟩ := opening_eq hp.name hs junk 64
  have ha := a.toNat_lt
  have hb := b.toNat_lt
  obtain ⟨h5, h6⟩ := dec_ok (n := a.toNat * 256 + b.toNat) (by omega)
  have := lineFor_body hp hs (.pref (ascii "mx") ("mx", 15) sp (dec (a.toNat * 256 + b.toNat)) sp (inner n)) (fun _ h => (by cases h))
    (fun o => ⟨by decide, says_facts.2.2.2.2.1, sp_ok, h5, by omega, sp_ok, ⟨inner_ok hn (by omega) o, rfl, fun h => (by cases h)⟩, by rw [inner_name]; omega⟩) ht.symm
    (fun o _ => ?_) (fun h => (by cases h)) rfl
  · refine ⟨_, ?_, this⟩
    obtain ⟨c, t, he⟩ := encName_eq_cons n
    have hh := hname_run junk 64 (plainName_labels hn) (by omega)
    rw [if_neg hn.1, he] at hh
    have hsub : ∃ y, L.substr (a :: b :: c :: t) 2 ((a :: b :: c :: t).length - 2) 512 = some y := by
      rw [he] at hns
      unfold L.substr
      rw [if_pos (by simp only [List.length_cons] at hns ⊢; omega)]
      exact ⟨_, rfl⟩
    obtain ⟨y, hy⟩ := hsub
    rw [hd, he]
    simp only [List.cons_append, List.nil_append]
    unfold mxLine
    simp only [hy, hm, hh, ho, ascii_facts.2.2.2.2.2.1, List.tail_cons, inner_esc hn, Body.text, sp_text]
    simp
  · rw [Body.data, inner_name, hd, h6, Body.num16]
    congr 1
    rw [show (a.toNat * 256 + b.toNat) / 256 = a.toNat by omega, UInt8.ofNat_toNat]
    congr 2
    apply UInt8.toNat_inj.1
    simp only [UInt8.toNat_ofNat']
    omega

theorem soaName_run : ∀ (ls : Name) (a rest : List UInt8) (off n k : Nat), LabelsOk ls → a.length = off + k → ls.length < n →
    k + (encName ls).length ≤ 256 → soaName (a ++ (encName ls ++ rest)) off n k =
      some (((a ++ (encName ls ++ rest)).drop off).take (k + (encName ls).length - 1) ++ [0], off + (k + (encName ls).length))
  | [], a, rest, off, n + 1, k, _, ha, _, hs => by
    have he : encName [] = [0] := rfl
    rw [he] at hs ⊢
    simp only [List.length_cons, List.length_nil] at hs ⊢
    rw [soaName, if_neg (by omega), if_neg (by omega), List.getElem?_append_right (by omega), show off + k - a.length = 0 by omega]
    simp
    omega
  | l :: ls, a, rest, off, n + 1, k, hl, ha, hn, hs => by
    have hb := len_byte hl.head
    have hp : 1 ≤ (encName ls).length := by
      obtain ⟨c', r', he'⟩ := encName_eq_cons ls
      rw [he']; simp
    have hlen : (encName (l :: ls)).length = l.length + 1 + (encName ls).length := by
      rw [encName_cons]; simp only [List.length_append, List.length_cons]
    rw [hlen] at hs
    have e : a ++ (encName (l :: ls) ++ rest) = (a ++ UInt8.ofNat l.length :: l) ++ (encName ls ++ rest) := by
      rw [encName_cons]; simp
    have h0 : (a ++ (encName (l :: ls) ++ rest))[off + k]? = some (UInt8.ofNat l.length) := by
      rw [List.getElem?_append_right (by omega), show off + k - a.length = 0 by omega, encName_cons]; rfl
    rw [soaName, if_neg (by omega), if_neg (by omega), h0]
    simp only
    rw [if_neg hb.2.2.1, if_neg hb.2.2.2.1, hb.1, if_pos ⟨by omega, by simp only [List.length_append, hlen]; omega⟩]
    rw [e, soaName_run ls _ rest off n _ hl.tail (by simp; omega) (by simp at hn; omega) (by omega), hlen]
    congr 2
    · congr 2; omega
    · omega

theorem soaName_enc {ls : Name} (hl : LabelsOk ls) (hs : (encName ls).length ≤ 255) (a rest : List UInt8) :
    soaName (a ++ (encName ls ++ rest)) a.length 256 0 = some (encName ls, a.length + (encName ls).length) := by
  rw [soaName_run ls a rest a.length 256 0 hl rfl (by have := labels_lt ls; omega) (by omega), List.drop_left, Nat.zero_add,
    List.take_append_of_le_length (by omega)]
  congr 2
  have : encName ls = Spec.encLabels ls ++ [0] := rfl
  rw [this]
  simp

theorem num_four (a b c d : UInt8) : num [a, b, c, d] = ((a.toNat * 256 + b.toNat) * 256 + c.toNat) * 256 + d.toNat ∧
    Spec.num32 (num [a, b, c, d]) = [a, b, c, d] := by
  have e : num [a, b, c, d] = ((a.toNat * 256 + b.toNat) * 256 + c.toNat) * 256 + d.toNat := by simp [num]
  have ha := a.toNat_lt
  have hb := b.toNat_lt
  have hc := c.toNat_lt
  have hd := d.toNat_lt
  refine ⟨e, ?_⟩
  rw [e, Spec.num32]
  congr 1
  · rw [show (((a.toNat * 256 + b.toNat) * 256 + c.toNat) * 256 + d.toNat) / 16777216 = a.toNat by omega, UInt8.ofNat_toNat]
  · congr 1
    · apply UInt8.toNat_inj.1
      simp only [UInt8.toNat_ofNat']
      omega
    · congr 1
      · apply UInt8.toNat_inj.1
        simp only [UInt8.toNat_ofNat']
        omega
      · congr 1
        apply UInt8.toNat_inj.1
        simp only [UInt8.toNat_ofNat']
        omega

theorem plain_user {c : UInt8} (h : isPlain c = true) : Mail.isUser c = true ∧ c ≠ 46 := by
  have : ∀ n : Fin 256, isPlain (UInt8.ofNat n) = true → Mail.isUser (UInt8.ofNat n) = true ∧ UInt8.ofNat n ≠ 46 := by decide +kernel
  have := this ⟨c.toNat, c.toNat_lt⟩
  simp only [UInt8.ofNat_toNat] at this
  exact this h

theorem single_plain {l : List UInt8} (h : ∀ c ∈ l, isPlain c = true) : Mail.Single l := by
  induction l with
  | nil => trivial
  | cons c l ih =>
    have hc := plain_user (h c List.mem_cons_self)
    rw [Mail.Single]
    · exact ⟨hc.1, ih fun x hx => h x (List.mem_cons_of_mem _ hx)⟩
    · intro _ _ h'; exact absurd h' hc.2
    · intro h'; exact absurd h' hc.2

theorem user_text {u : List UInt8} (h : ∀ c ∈ u, isPlain c = true) : u.flatMap (fun c => if c = 46 then [92, 46] else [c]) = u := by
  induction u with
  | nil => rfl
  | cons c u ih =>
    rw [List.flatMap_cons, ih fun x hx => h x (List.mem_cons_of_mem _ hx), if_neg (plain_user (h c List.mem_cons_self)).2]
    rfl

theorem mail_ok {u : List UInt8} {h : Name} (hu : PlainName [u]) (hh : PlainName h) (hs : (encName (u :: h)).length ≤ 255) (o : Name) :
    Mail.Ok ⟨u, inner h⟩ o ∧ Mail.data ⟨u, inner h⟩ o = encName (u :: h) ∧ Mail.text ⟨u, inner h⟩ = u ++ 64 :: dotted h := by
  have hp := hu.2 u List.mem_cons_self
  have hl : (encName h).length ≤ 255 := by rw [encName_cons] at hs; simp only [List.length_append] at hs; omega
  refine ⟨⟨?_, hp.2.1, inner_ok hh hl o, rfl, by rw [Mail.data, inner_name]; exact hs⟩, by rw [Mail.data, inner_name], ?_⟩
  · match u, hp with
    | c :: u, hp => exact ⟨c, u, rfl, hp.2.2 c List.mem_cons_self, single_plain fun x hx => hp.2.2 x (List.mem_cons_of_mem _ hx)⟩
    | [], hp => exact absurd hp.1 (by simp)
  · rw [Mail.text, inner_text, user_text hp.2.2]

theorem signed_dec {n : Nat} (h : n ≤ 2147483647) : signed n = dec n := if_pos (by omega)

theorem four {l : List UInt8} (h : 4 ≤ l.length) : ∃ a b c d r, l = a :: b :: c :: d :: r := by
  match l, h with
  | a :: b :: c :: d :: r, _ => exact ⟨a, b, c, d, r, rfl⟩

theorem soa_line {r : Rec} (hp : Plain r) (hs : (encName r.name).length ≤ 255) (ht : r.type = 6) {m : Name} {u : List UInt8} {h : Name}
    (hm : PlainName m) (hms : (encName m).length ≤ 255) (hu : PlainName [u]) (hh : PlainName h) (hus : (encName (u :: h)).length ≤ 255)
    (hsum : (encName m).length + (encName (u :: h)).length ≤ 491)
    {tail : List UInt8} (htl : tail.length = 20) (hn : ∀ i ∈ [0, 4, 8, 12, 16], num32At tail i ≤ 2147483647)
    (hd : r.rdata = encName m ++ (encName (u :: h) ++ tail)) (junk : UInt8) (e f : Nat) :
    ∃ x, soaLine junk ⟨encName r.name, r.type, r.ttl, e, f⟩ r.rdata 0 = (x, .more 1) ∧ LineFor r x := by
  obtain ⟨m', hm', ho⟩ := opening_eq hp.name hs junk 83
  have hul : LabelsOk (u :: h) := fun x hx => by
    rcases List.mem_cons.1 hx with rfl | hx
    · exact ⟨(hu.2 _ List.mem_cons_self).1, (hu.2 _ List.mem_cons_self).2.1⟩
    · exact plainName_labels hh x hx
  have s1 := soaName_enc (plainName_labels hm) hms [] (encName (u :: h) ++ tail)
  have s2 := soaName_enc hul hus (encName m) tail
  simp only [List.nil_append, List.length_nil, Nat.zero_add] at s1
  obtain ⟨a0, b0, c0, d0, a1, b1, c1, d1, a2, b2, c2, d2, a3, b3, c3, d3, a4, b4, c4, d4, rfl⟩ :
      ∃ a0 b0 c0 d0 a1 b1 c1 d1 a2 b2 c2 d2 a3 b3 c3 d3 a4 b4 c4 d4,
        tail = [a0, b0, c0, d0, a1, b1, c1, d1, a2, b2, c2, d2, a3, b3, c3, d3, a4, b4, c4, d4] := by
    obtain ⟨a0, b0, c0, d0, t0, rfl⟩ := four (l := tail) (by omega)
    obtain ⟨a1, b1, c1, d1, t1, rfl⟩ := four (l := t0) (by simp at htl; omega)
    obtain ⟨a2, b2, c2, d2, t2, rfl⟩ := four (l := t1) (by simp at htl; omega)
    obtain ⟨a3, b3, c3, d3, t3, rfl⟩ := four (l := t2) (by simp at htl; omega)
    obtain ⟨a4, b4, c4, d4, t4, rfl⟩ := four (l := t3) (by simp at htl; omega)
    have : t4 = [] := by simpa using htl
    subst this
    exact ⟨a0, b0, c0, d0, a1, b1, c1, d1, a2, b2, c2, d2, a3, b3, c3, d3, a4, b4, c4, d4, rfl⟩
  have n0 : num [a0, b0, c0, d0] ≤ 2147483647 := by rw [(num_four _ _ _ _).1]; exact hn 0 (by decide)
  have n1 : num [a1, b1, c1, d1] ≤ 2147483647 := by rw [(num_four _ _ _ _).1]; exact hn 4 (by decide)
  have n2 : num [a2, b2, c2, d2] ≤ 2147483647 := by rw [(num_four _ _ _ _).1]; exact hn 8 (by decide)
  have n3 : num [a3, b3, c3, d3] ≤ 2147483647 := by rw [(num_four _ _ _ _).1]; exact hn 12 (by decide)
  have n4 : num [a4, b4, c4, d4] ≤ 2147483647 := by rw [(num_four _ _ _ _).1]; exact hn 16 (by decide)
  have hread : readSoa r.rdata = some ⟨encName m, encName (u :: h), num [a0, b0, c0, d0], num [a1, b1, c1, d1], num [a2, b2, c2, d2],
      num [a3, b3, c3, d3], num [a4, b4, c4, d4]⟩ := by
    unfold readSoa
    rw [hd, s1]
    simp only [s2]
    rw [if_neg (by simp only [List.length_append, List.length_cons, List.length_nil]; omega)]
    have : ∀ i, (encName m ++ (encName (u :: h) ++ [a0, b0, c0, d0, a1, b1, c1, d1, a2, b2, c2, d2, a3, b3, c3, d3, a4, b4, c4, d4])).drop
        ((encName m).length + (encName (u :: h)).length + i) =
        [a0, b0, c0, d0, a1, b1, c1, d1, a2, b2, c2, d2, a3, b3, c3, d3, a4, b4, c4, d4].drop i := by
      intro i
      rw [← List.append_assoc, ← List.length_append, List.drop_append, List.drop_eq_nil_of_le (by omega), List.nil_append]
      congr 1
      omega
    simp only [this]
    rfl
  have k0 := dec_ok n0
  have k1 := dec_ok n1
  have k2 := dec_ok n2
  have k3 := dec_ok n3
  have k4 := dec_ok n4
  have hmail := mail_ok hu hh hus
  have := lineFor_body hp hs (.soa (ascii "soa") sp (inner m) sp ⟨u, inner h⟩ sp (some (dec (num [a0, b0, c0, d0]))) sp
    (dec (num [a1, b1, c1, d1])) sp (dec (num [a2, b2, c2, d2])) sp (dec (num [a3, b3, c3, d3])) sp (dec (num [a4, b4, c4, d4])))
    (fun _ h => (by cases h)) ?_ ht.symm ?_ (fun h => (by cases h)) rfl
  · refine ⟨_, ?_, this⟩
    unfold soaLine
    rw [if_neg (by decide), hread]
    simp only [hm', hname_run junk 65 (plainName_labels hm) (by omega), if_neg hm.1, email_run junk hul (by omega), List.tail_cons,
      inner_esc hm, sepd, ho, signed_dec n1, signed_dec n2, signed_dec n3, ascii_facts.2.2.2.2.2.2.2.1]
    have e2 : safeEsc (32 :: (u ++ 64 :: dotted h)) = 32 :: (u ++ 64 :: dotted h) := by
      apply safeEsc_space
      intro c hc
      rcases List.mem_append.1 hc with hc | hc
      · exact .inl ((hu.2 u List.mem_cons_self).2.2 c hc)
      · rcases List.mem_cons.1 hc with rfl | hc
        · exact .inr (.inr rfl)
        · exact dotted_plain (fun l hl => (hh.2 l hl).2.2) c hc
    simp only [e2, Body.text, sp_text, (hmail []).2.2, Body.serialText]
    simp
  · intro o
    refine ⟨says_facts.2.2.2.2.2, sp_ok, ⟨inner_ok hm hms o, rfl, fun h => (by cases h)⟩, sp_ok, (hmail o).1, fun h => (by cases h), sp_ok, ?_,
      fun h => (by cases h), sp_ok, ?_, sp_ok, sp_ok, sp_ok, ?_⟩
    · intro l hl; cases hl; exact k0.1
    · intro l hl
      simp only [List.mem_cons, List.not_mem_nil, or_false] at hl
      rcases hl with rfl | rfl | rfl | rfl
      · exact k1.1
      · exact k2.1
      · exact k3.1
      · exact k4.1
    · rw [inner_name, (hmail o).2.1]; exact hsum
  · intro o s
    rw [Body.data, inner_name, (hmail o).2.1, Option.map_some, Option.getD_some, k0.2, k1.2, k2.2, k3.2, k4.2, (num_four _ _ _ _).2,
      (num_four _ _ _ _).2, (num_four _ _ _ _).2, (num_four _ _ _ _).2, (num_four _ _ _ _).2, hd]
    simp

theorem form_one {r : Rec} (hr : r.Ok) (ht : r.type = 2 ∨ r.type = 5 ∨ r.type = 12) : ∃ n, r.names = [n] ∧ r.rdata = encName n := by
  have hf := hr.form
  have : rdLayout r.type = some (0, 1, 0) := by rcases ht with h | h | h <;> rw [h] <;> rfl
  rw [this] at hf
  simp only [Option.getD_some, Prod.mk.injEq] at hf
  obtain ⟨n, hn⟩ := List.length_eq_one_iff.1 hf.2.1
  refine ⟨n, hn, ?_⟩
  rw [Rec.rdata, List.length_eq_zero_iff.1 hf.1, List.length_eq_zero_iff.1 hf.2.2, hn]
  simp

theorem form_none {r : Rec} (hr : r.Ok) (ht : rdLayout r.type = none) : r.rdata = r.tail := by
  have hf := hr.form
  rw [ht] at hf
  simp only [Option.getD_none, Prod.mk.injEq] at hf
  rw [Rec.rdata, List.length_eq_zero_iff.1 hf.1, List.length_eq_zero_iff.1 hf.2.1]
  simp

/-- The line of a record. -/
theorem line_plain {r : Rec} (hr : r.Ok) (ha : r.type = 1 → r.tail.length = 4) (hs : ∀ n ∈ r.name :: r.names, (encName n).length ≤ 255) (hp : Plain r)
    (junk : UInt8) (e f soa : Nat) (hsoa : r.type = 6 → soa = 0) :
    ∃ x, line junk ⟨encName r.name, r.type, r.ttl, e, f⟩ r.rdata soa = (x, .more (if r.type = 6 then 1 else soa)) ∧ LineFor r x := by
  have hsn := hs r.name List.mem_cons_self
  have hd := hp.data
  have hl := ascii_facts
  by_cases h6 : r.type = 6
  · rw [if_pos h6]
    have hl : line junk ⟨encName r.name, r.type, r.ttl, e, f⟩ r.rdata soa = soaLine junk ⟨encName r.name, r.type, r.ttl, e, f⟩ r.rdata soa := by
      unfold line; simp only [h6]
    rw [hl, hsoa h6]
    unfold DataOk at hd
    simp only [h6] at hd
    obtain ⟨m, u, h, hn, h1, h2, h3, h4, h5⟩ := hd
    have hf := hr.form
    rw [h6, show rdLayout 6 = some (0, 2, 20) from rfl] at hf
    simp only [Option.getD_some, Prod.mk.injEq] at hf
    exact soa_line hp hsn h6 h1 (hs m (by simp [hn])) h2 h3 (hs _ (by simp [hn])) h4 hf.2.2 h5
      (by rw [Rec.rdata, List.length_eq_zero_iff.1 hf.1, hn]; simp) junk e f
  rw [if_neg h6]
  by_cases h1 : r.type = 1
  · have hl : line junk ⟨encName r.name, r.type, r.ttl, e, f⟩ r.rdata soa = aLine junk ⟨encName r.name, r.type, r.ttl, e, f⟩ r.rdata soa := by
      unfold line; simp only [h1]
    have ht := form_none hr (by rw [h1]; rfl)
    obtain ⟨a, b, c, d, t, h4⟩ := four (l := r.tail) (by have := ha h1; omega)
    have : t = [] := by have := ha h1; rw [h4] at this; simpa using this
    subst this
    rw [hl]
    exact a_line hp hsn h1 (by rw [ht, h4]) junk e f soa
  by_cases h28 : r.type = 28
  · have hl : line junk ⟨encName r.name, r.type, r.ttl, e, f⟩ r.rdata soa = aaaaLine junk ⟨encName r.name, r.type, r.ttl, e, f⟩ r.rdata soa := by
      unfold line; simp only [h28]
    rw [hl]
    exact aaaa_line hp hsn h28 junk e f soa
  by_cases h15 : r.type = 15
  · have hl : line junk ⟨encName r.name, r.type, r.ttl, e, f⟩ r.rdata soa = mxLine junk ⟨encName r.name, r.type, r.ttl, e, f⟩ r.rdata soa := by
      unfold line; simp only [h15]
    unfold DataOk at hd
    simp only [h15] at hd
    have hf := hr.form
    rw [h15, show rdLayout 15 = some (2, 1, 0) from rfl] at hf
    simp only [Option.getD_some, Prod.mk.injEq] at hf
    obtain ⟨n, hn⟩ := List.length_eq_one_iff.1 hf.2.1
    obtain ⟨a, b, hab⟩ := List.length_eq_two.1 hf.1
    have hrd : r.rdata = a :: b :: encName n := by rw [Rec.rdata, List.length_eq_zero_iff.1 hf.2.2, hn, hab]; simp
    rw [hl]
    exact mx_line hp hsn h15 (hd n (by simp [hn])).1 (hd n (by simp [hn])).2 hrd junk e f soa
  by_cases h16 : r.type = 16
  · have hl : line junk ⟨encName r.name, r.type, r.ttl, e, f⟩ r.rdata soa = txtLine junk ⟨encName r.name, r.type, r.ttl, e, f⟩ r.rdata soa := by
      unfold line; simp only [h16]
    unfold DataOk at hd
    simp only [h16] at hd
    rw [hl]
    exact txt_line hp hsn h16 (by rw [form_none hr (by rw [h16]; rfl)]; exact hd) junk e f soa
  by_cases h2 : r.type = 2
  · have hl : line junk ⟨encName r.name, r.type, r.ttl, e, f⟩ r.rdata soa = nameLine junk " ns" ⟨encName r.name, r.type, r.ttl, e, f⟩ r.rdata soa := by
      unfold line; simp only [h2]
    unfold DataOk at hd
    simp only [h2] at hd
    obtain ⟨n, hn, hdn⟩ := form_one hr (.inl h2)
    rw [hl]
    exact name_line hp hsn (w := "ns") (by rw [h2]; decide) ascii_facts.2.2.2.2.2.2.2.2.1 (by decide +kernel) (hd n (by simp [hn])) (hs n (by simp [hn])) hdn junk e f soa
  by_cases h12 : r.type = 12
  · have hl : line junk ⟨encName r.name, r.type, r.ttl, e, f⟩ r.rdata soa = nameLine junk " ptr" ⟨encName r.name, r.type, r.ttl, e, f⟩ r.rdata soa := by
      unfold line; simp only [h12]
    unfold DataOk at hd
    simp only [h12] at hd
    obtain ⟨n, hn, hdn⟩ := form_one hr (.inr (.inr h12))
    rw [hl]
    exact name_line hp hsn (w := "ptr") (by rw [h12]; decide) ascii_facts.2.2.2.2.2.2.2.2.2.1 (by decide +kernel) (hd n (by simp [hn])) (hs n (by simp [hn])) hdn junk e f soa
  by_cases h5 : r.type = 5
  · have hl : line junk ⟨encName r.name, r.type, r.ttl, e, f⟩ r.rdata soa = nameLine junk " cname" ⟨encName r.name, r.type, r.ttl, e, f⟩ r.rdata soa := by
      unfold line; simp only [h5]
    unfold DataOk at hd
    simp only [h5] at hd
    obtain ⟨n, hn, hdn⟩ := form_one hr (.inr (.inl h5))
    rw [hl]
    exact name_line hp hsn (w := "cname") (by rw [h5]; decide) ascii_facts.2.2.2.2.2.2.2.2.2.2 (by decide +kernel) (hd n (by simp [hn])) (hs n (by simp [hn])) hdn junk e f soa
  have hl : line junk ⟨encName r.name, r.type, r.ttl, e, f⟩ r.rdata soa = raw junk ⟨encName r.name, r.type, r.ttl, e, f⟩ r.rdata soa := by
    unfold line
    split <;> simp_all
  rw [hl]
  refine raw_line hp hsn hr.type ?_ junk e f soa
  unfold DataOk at hd
  split at hd <;> first | contradiction | exact hd

end Fetch
end Mara
