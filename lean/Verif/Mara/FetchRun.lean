import Verif.Mara.FetchLine
import Verif.Mara.FetchSafeProps
import Verif.Mara.Csv2Props
/-!
# What fetchzone prints for well-formed messages
-/

namespace Mara
namespace Fetch

open Spec (ascii Name Rec Parcel encName dotted LabelsOk be16 be32 RR memOf Legible RecsVia RecVia NamesVia)
open Spec.ZoneText
open Spec.Transfer

theorem num_be16 {n : Nat} (h : n < 65536) : num (be16 n) = n := by
  simp [num, be16, UInt8.toNat_ofNat']; omega

theorem num_be32 {n : Nat} (h : n < 4294967296) : num (be32 n) = n := by
  simp [num, be32, be16, UInt8.toNat_ofNat']; omega

/-- What is known of a record in a message. -/
structure Held (r : Rec) : Prop where
  ok : r.Ok
  a : r.type = 1 → r.tail.length = 4
  names : ∀ n ∈ r.name :: r.names, LabelsOk n ∧ (encName n).length ≤ 255

theorem readRr_run {r : Rec} (hr : Held r) (pre rest : List UInt8) :
    readRr (pre ++ (r.toRR.enc ++ rest)) pre.length =
      some ⟨encName r.name, r.type, r.ttl, r.rdata.length, pre.length + (encName r.name).length + 10⟩ ∧
    (r.rdata ≠ [] → L.substr (pre ++ (r.toRR.enc ++ rest)) (pre.length + (encName r.name).length + 10) r.rdata.length (r.rdata.length + 7) = some r.rdata) := by
  obtain ⟨h1, h2⟩ := hr.names r.name List.mem_cons_self
  have hcl := hr.ok.cls
  have b2 : ∀ n, (be16 n).length = 2 := fun _ => rfl
  have b4 : ∀ n, (be32 n).length = 4 := fun _ => rfl
  have he := Decomp.enc_eq r
  have hk : nameLen (pre ++ (r.toRR.enc ++ rest)) pre.length 256 0 = some (encName r.name).length := by
    have := nameLen_run r.name pre ((be16 r.type ++ r.cls ++ be32 r.ttl) ++ be16 r.rdata.length ++ r.rdata ++ rest) pre.length 256 0 h1 (by simp)
      (by have := labels_lt r.name; omega) (by omega)
    rw [he]
    simpa only [List.append_assoc, Nat.zero_add] using this
  have hd : (pre ++ (r.toRR.enc ++ rest)).drop (pre.length + (encName r.name).length) =
      be16 r.type ++ (r.cls ++ (be32 r.ttl ++ (be16 r.rdata.length ++ (r.rdata ++ rest)))) := by
    rw [he]
    simp [List.drop_append]
  constructor
  · unfold readRr
    rw [hk]
    dsimp only
    rw [if_pos (by rw [he]; simp [b2, b4, hcl]; omega), hd]
    have t1 : (List.drop pre.length (pre ++ (r.toRR.enc ++ rest))).take (encName r.name).length = encName r.name := by
      rw [List.drop_left, he]
      simp
    have t2 : (be16 r.type ++ (r.cls ++ (be32 r.ttl ++ (be16 r.rdata.length ++ (r.rdata ++ rest))))).take 2 = be16 r.type := by
      rw [← b2 r.type, List.take_left]
    have d4 : (be16 r.type ++ (r.cls ++ (be32 r.ttl ++ (be16 r.rdata.length ++ (r.rdata ++ rest))))).drop 4 = be32 r.ttl ++ (be16 r.rdata.length ++ (r.rdata ++ rest)) := by
      rw [← List.append_assoc, show 4 = (be16 r.type ++ r.cls).length by simp [b2, hcl], List.drop_left]
    have d8 : (be16 r.type ++ (r.cls ++ (be32 r.ttl ++ (be16 r.rdata.length ++ (r.rdata ++ rest))))).drop 8 = be16 r.rdata.length ++ (r.rdata ++ rest) := by
      rw [← List.append_assoc, ← List.append_assoc, show 8 = (be16 r.type ++ r.cls ++ be32 r.ttl).length by simp [b2, b4, hcl], List.drop_left]
    rw [t1, t2, d4, d8, ← b4 r.ttl, List.take_left, num_be32 hr.ok.ttl, ← b2 r.rdata.length, List.take_left, num_be16 hr.ok.size, num_be16 hr.ok.type]
  · intro hne
    have hpos : 0 < r.rdata.length := List.length_pos_iff.2 hne
    unfold L.substr
    rw [if_pos (by rw [he]; simp [b2, b4, hcl]; omega), ← List.drop_drop, hd]
    have : (be16 r.type ++ (r.cls ++ (be32 r.ttl ++ (be16 r.rdata.length ++ (r.rdata ++ rest))))).drop 10 = r.rdata ++ rest := by
      rw [← List.append_assoc, ← List.append_assoc, ← List.append_assoc, show 10 = (be16 r.type ++ r.cls ++ be32 r.ttl ++ be16 r.rdata.length).length by simp [b2, b4, hcl],
        List.drop_left]
    rw [this, List.take_left]

/-- What is printed for these records. -/
inductive Prints (zone : Name) : List Rec → List UInt8 → Prop
  | nil : Prints zone [] []
  | inside {r : Rec} {rs : List Rec} {x o : List UInt8} : Within zone r.name → LineFor r x → Prints zone rs o → Prints zone (r :: rs) (x ++ o)
  | outside {r : Rec} {rs : List Rec} {x o : List UInt8} {e : End} {n : Nat} : ¬ Within zone r.name →
      Whole (safeEsc (shown r.name)) (x, e) n → n ≤ 3850 → (encName r.name).length ≤ 255 → Prints zone rs o → Prints zone (r :: rs) (warning ++ x ++ o)

theorem Prints.append {zone : Name} {a b : List Rec} {x y : List UInt8} (ha : Prints zone a x) (hb : Prints zone b y) : Prints zone (a ++ b) (x ++ y) := by
  induction ha with
  | nil => exact hb
  | inside h1 h2 _ ih => rw [List.append_assoc]; exact .inside h1 h2 ih
  | outside h1 h2 h3 h4 _ ih => rw [List.append_assoc]; exact .outside h1 h2 h3 h4 ih

/-- Which records are printed when `soa` SOA records have been seen, and how many have been seen then; nothing when the
transfer has ended. -/
def run : Nat → List Rec → List Rec × Option Nat
  | soa, [] => ([], some soa)
  | soa, r :: rs =>
    if r.type = 6 then (if soa = 0 then (r :: (run 1 rs).1, (run 1 rs).2) else ([], none))
    else (r :: (run soa rs).1, (run soa rs).2)

/-- A record that can be written, or made a comment. -/
structure Fits (zone : Name) (r : Rec) : Prop where
  plain : Plain r
  small : ¬ Within zone r.name → r.rdata.length ≤ 900

theorem soa_data {r : Rec} (hr : r.Ok) (h : r.type = 6) : r.rdata ≠ [] := by
  have hf := hr.form
  rw [h, show Spec.rdLayout 6 = some (0, 2, 20) from rfl] at hf
  simp only [Option.getD_some, Prod.mk.injEq] at hf
  intro h0
  have := congrArg List.length h0
  simp [Rec.rdata, hf.2.2] at this

theorem foldCase_labels {n : Name} (hn : LabelsOk n) : foldCase (encName n) = encName (foldLabels n) ∧ LabelsOk (foldLabels n) ∧
    (encName (foldLabels n)).length = (encName n).length := ⟨(foldLabels_ok hn).2.1, (foldLabels_ok hn).1, (foldLabels_ok hn).2.2⟩

/-- The comments that end what is printed. -/
def Ends (fin : List UInt8) : Prop := fin = ascii "# Second SOA received, exiting\n" ∨ fin = warning ++ ascii "# Second SOA received, exiting\n"

theorem answers_run {zone : Name} (hz : PlainName zone) (junk : List UInt8 → UInt8) : ∀ (rs : List Rec) (soa : Nat) (pre rest : List UInt8),
    (∀ r ∈ rs, Held r) → (∀ r ∈ (run soa rs).1, Fits zone r) →
    ∃ out, Prints zone (run soa rs).1 out ∧
      match (run soa rs).2 with
      | some s => answers (encName zone) junk (pre ++ (rs.flatMap (fun r => r.toRR.enc) ++ rest)) rs.length pre.length soa = (out, .more s)
      | none => ∃ fin, Ends fin ∧ answers (encName zone) junk (pre ++ (rs.flatMap (fun r => r.toRR.enc) ++ rest)) rs.length pre.length soa = (out ++ fin, .exit 0)
  | [], soa, pre, rest, _, _ => ⟨[], .nil, rfl⟩
  | r :: rs, soa, pre, rest, hh, hf => by
    have hr := hh r List.mem_cons_self
    obtain ⟨hn1, hn2⟩ := hr.names r.name List.mem_cons_self
    obtain ⟨hfc, hfl, hfn⟩ := foldCase_labels hn1
    rw [List.flatMap_cons, List.append_assoc, List.length_cons]
    obtain ⟨hread, hsub⟩ := readRr_run hr pre (rs.flatMap (fun r => r.toRR.enc) ++ rest)
    have hin := inZone_iff (plain_ok hz) (ls := foldLabels r.name) ((encName (foldLabels r.name)).length + 1) hfl (by have := labels_lt (foldLabels r.name); omega)
    rw [answers, hread]
    dsimp only
    rw [hfc]
    by_cases hend : r.type = 6 ∧ soa ≠ 0
    · have hrun : run soa (r :: rs) = ([], none) := by rw [run, if_pos hend.1, if_neg hend.2]
      rw [hrun, hsub (soa_data hr.ok hend.1)]
      refine ⟨[], .nil, ?_⟩
      have hl : ∀ j e f, line j ⟨encName (foldLabels r.name), r.type, r.ttl, e, f⟩ r.rdata soa = (ascii "# Second SOA received, exiting\n", .exit 0) := by
        intro j e f
        unfold line
        simp only [hend.1]
        unfold soaLine
        rw [if_pos (by omega)]
      dsimp only
      rw [hl]
      simp only [andThen]
      split
      · exact ⟨_, .inl rfl, by simp⟩
      · exact ⟨_, .inr rfl, by simp⟩
    · have hrun : run soa (r :: rs) = (r :: (run (if r.type = 6 then 1 else soa) rs).1, (run (if r.type = 6 then 1 else soa) rs).2) := by
        rw [run]
        split
        · rw [if_pos (by by_contra h; exact hend ⟨‹_›, h⟩)]
        · rfl
      rw [hrun] at hf ⊢
      have hfit := hf r List.mem_cons_self
      have hsame := foldLabels_same hfit.plain.lower
      rw [hsame] at hin ⊢
      rw [hsub hfit.plain.some]
      obtain ⟨x, hx, hlf⟩ := line_plain hr.ok hr.a (fun n hn => (hr.names n hn).2) hfit.plain (junk r.rdata) r.rdata.length
        (pre.length + (encName r.name).length + 10) soa (fun h => by by_contra h'; exact hend ⟨h, h'⟩)
      dsimp only
      rw [hx]
      dsimp only [andThen]
      obtain ⟨out, h1, h2⟩ := answers_run hz junk rs (if r.type = 6 then 1 else soa) (pre ++ r.toRR.enc) rest
        (fun r' hr' => hh r' (List.mem_cons_of_mem _ hr')) (fun r' hr' => hf r' (List.mem_cons_of_mem _ hr'))
      have hlen : (pre ++ r.toRR.enc).length = pre.length + (encName r.name).length + 10 + r.rdata.length := by
        rw [Decomp.enc_eq]
        have b2 : ∀ n, (be16 n).length = 2 := fun _ => rfl
        have b4 : ∀ n, (be32 n).length = 4 := fun _ => rfl
        simp [b2, b4, hr.ok.cls]; omega
      rw [hlen, List.append_assoc] at h2
      have hp : ∃ y, Prints zone (r :: (run (if r.type = 6 then 1 else soa) rs).1) (y ++ out) ∧
          (if inZone (encName zone) ((encName r.name).length + 1) (encName r.name) = true then [] else warning) ++ x = y := by
        by_cases h : inZone (encName zone) ((encName r.name).length + 1) (encName r.name) = true
        · rw [if_pos h]
          exact ⟨x, .inside (hin.1 h) hlf h1, rfl⟩
        · rw [if_neg h]
          have hw : ¬ Within zone r.name := fun h' => h (hin.2 h')
          refine ⟨warning ++ x, ?_, rfl⟩
          rcases line_shape (rr := ⟨encName r.name, r.type, r.ttl, r.rdata.length, pre.length + (encName r.name).length + 10⟩) (junk r.rdata) r.rdata soa hn1 rfl (by omega) with h' | h'
          · rw [hx] at h'
            obtain ⟨_, _, _, h', _⟩ := h'
            cases h'
          · rw [hx] at h'
            exact .outside hw h' (by have := hfit.small hw; omega) hn2 h1
      obtain ⟨y, hy, hxy⟩ := hp
      refine ⟨y ++ out, hy, ?_⟩
      rw [hxy]
      generalize (run (if r.type = 6 then 1 else soa) rs).2 = e at h2 ⊢
      cases e with
      | some s => dsimp only at h2 ⊢; rw [h2]
      | none =>
        obtain ⟨fin, hfin, h2⟩ := h2
        refine ⟨fin, hfin, ?_⟩
        rw [h2]
        simp

theorem run_append : ∀ (a b : List Rec) (soa : Nat), run soa (a ++ b) =
    match (run soa a).2 with
    | some s => ((run soa a).1 ++ (run s b).1, (run s b).2)
    | none => ((run soa a).1, none)
  | [], b, soa => rfl
  | r :: a, b, soa => by
    rw [List.cons_append, run, run]
    split
    · split
      · have := run_append a b 1
        rw [this]
        cases (run 1 a).2 <;> rfl
      · rfl
    · have := run_append a b soa
      rw [this]
      cases (run soa a).2 <;> rfl

theorem names_via {c : List UInt8} {i k : Nat} {ns : List Name} (h : NamesVia (Legible (memOf c)) (memOf c) i ns k) :
    ∀ n ∈ ns, LabelsOk n ∧ (encName n).length ≤ 255 := by
  induction h with
  | nil => intro n h; cases h
  | cons h1 _ _ ih =>
    intro n hn
    rcases List.mem_cons.1 hn with rfl | hn
    · obtain ⟨h1, k, _, h2⟩ := h1
      exact ⟨Comp.NameIn.ok (Decomp.nameBy_in h2), h1⟩
    · exact ih n hn

theorem recs_via {c : List UInt8} {i k : Nat} {rs : List Rec} (h : RecsVia (Legible (memOf c)) (memOf c) i rs k) :
    ∀ r ∈ rs, ∀ n ∈ r.name :: r.names, LabelsOk n ∧ (encName n).length ≤ 255 := by
  induction h with
  | nil => intro n h; cases h
  | cons h1 _ ih =>
    intro r hr
    rcases List.mem_cons.1 hr with rfl | hr
    · obtain ⟨a, k, h1, _, _, _, _, _, h2, _⟩ := h1.at_
      intro n hn
      rcases List.mem_cons.1 hn with rfl | hn
      · obtain ⟨h1, k, _, h2⟩ := h1
        exact ⟨Comp.NameIn.ok (Decomp.nameBy_in h2), h1⟩
      · exact names_via h2 n hn
    · exact ih r hr

/-- The message `p`, received as the bytes `c`; `rm` is the room for the data of a record. -/
structure Arrives (rm : Nat) (p : Parcel) (c : List UInt8) : Prop where
  ok : p.Ok
  via : p.Via (Legible (memOf c)) c
  noError : NoError p
  size : p.bytes.length < (c.length + 7) * 4
  data : ∀ r ∈ p.recs, r.rdata.length < rm

theorem Arrives.held {rm : Nat} {p : Parcel} {c : List UInt8} (h : Arrives rm p c) : ∀ r ∈ p.recs, Held r := by
  obtain ⟨a, e, _, h1, _⟩ := h.via.body
  exact fun r hr => ⟨h.ok.data r hr, h.ok.a r hr, recs_via h1 r hr⟩

theorem twelve {l : List UInt8} (h : l.length = 12) : ∃ a b x y q q' n n' s s' r r', l = [a, b, x, y, q, q', n, n', s, s', r, r'] := by
  obtain ⟨a, b, x, y, l1, rfl⟩ := four (l := l) (by omega)
  obtain ⟨q, q', n, n', l2, rfl⟩ := four (l := l1) (by simp at h; omega)
  obtain ⟨s, s', r, r', l3, rfl⟩ := four (l := l2) (by simp at h; omega)
  have : l3 = [] := by simpa using h
  subst this
  exact ⟨a, b, x, y, q, q', n, n', s, s', r, r', rfl⟩

theorem low_bits : ∀ n : Fin 256, (UInt8.ofNat n &&& 15).toNat = (UInt8.ofNat n).toNat % 16 := by decide +kernel

theorem low_four (y : UInt8) : (y &&& 15).toNat = y.toNat % 16 := by
  have := low_bits ⟨y.toNat, y.toNat_lt⟩
  simpa only [UInt8.ofNat_toNat] using this

theorem readHdr_run {l rest : List UInt8} (h : l.length = 12) : ∃ hd, Reply.readHdr (l ++ rest) = some hd ∧ hd.rcode = (l.getD 3 0).toNat % 16 ∧
    hd.qd = Parcel.count l 4 ∧ hd.an = Parcel.count l 6 := by
  obtain ⟨a, b, x, y, q, q', n, n', s, s', r, r', rfl⟩ := twelve h
  exact ⟨_, rfl, low_four y, rfl, rfl⟩

theorem message_run {zone : Name} (hz : PlainName zone) (junk : List UInt8 → UInt8) {rm soa : Nat} {p : Parcel} {c : List UInt8} (h : Arrives rm p c)
    (hf : ∀ r ∈ (run soa (Spec.Transfer.answers p)).1, Fits zone r) :
    ∃ out, Prints zone (run soa (Spec.Transfer.answers p)).1 out ∧
      match (run soa (Spec.Transfer.answers p)).2 with
      | some s => message (encName zone) junk rm c soa = (out, .more s)
      | none => ∃ fin, Ends fin ∧ message (encName zone) junk rm c soa = (out ++ fin, .exit 0) := by
  have hd := Decomp.decompress_exact h.ok h.via h.size h.data
  have h12 := h.ok.head
  have hc : ¬ c.length < 12 := by
    have := h.via.head.length_le
    omega
  have hsplit : p.recs = Spec.Transfer.answers p ++ p.recs.drop (Parcel.count p.head 6) := (List.take_append_drop _ _).symm
  have hlen : (Spec.Transfer.answers p).length = Parcel.count p.head 6 := by
    have := h.ok.recs
    rw [Spec.Transfer.answers, List.length_take]; omega
  have hheld : ∀ r ∈ Spec.Transfer.answers p, Held r := fun r hr => h.held r (List.take_subset _ _ hr)
  have hbytes : p.bytes = p.head ++ ((match p.question with | none => [] | some (n, t) => encName n ++ t) ++
      ((Spec.Transfer.answers p).flatMap (fun r => r.toRR.enc) ++ (p.recs.drop (Parcel.count p.head 6)).flatMap (fun r => r.toRR.enc))) := by
    rw [Parcel.bytes, List.append_assoc]
    congr 2
    rw [List.flatMap_map, ← List.flatMap_append, ← hsplit]
  obtain ⟨hdr, hh, hrc, hqd, han⟩ := readHdr_run (rest := (match p.question with | none => [] | some (n, t) => encName n ++ t) ++
      ((Spec.Transfer.answers p).flatMap (fun r => r.toRR.enc) ++ (p.recs.drop (Parcel.count p.head 6)).flatMap (fun r => r.toRR.enc))) h12
  have hno : (p.head.getD 3 0).toNat % 16 = 0 := h.noError
  have hm : message (encName zone) junk rm c soa = answers (encName zone) junk p.bytes (Spec.Transfer.answers p).length
      (p.head ++ (match p.question with | none => [] | some (n, t) => encName n ++ t)).length soa := by
    unfold message
    rw [if_neg hc, hd]
    dsimp only
    rw [hbytes, hh]
    dsimp only
    rw [if_neg (by rw [hrc, hno]; simp), hqd, h.ok.question, han, hlen]
    cases hq : p.question with
    | none =>
      rw [if_neg (by simp)]
      simp [h12]
    | some x =>
      obtain ⟨n, t⟩ := x
      have ht := h.ok.class_ _ hq
      obtain ⟨a, e, hb, _⟩ := h.via.body
      rw [hq] at hb
      obtain ⟨k, ⟨hn2, j, _, hn1⟩, _⟩ := hb
      rw [if_pos (by simp)]
      have := Lookup.dlabel_name (Comp.NameIn.ok (Decomp.nameBy_in hn1)) p.head
        (t ++ ((Spec.Transfer.answers p).flatMap (fun r => r.toRR.enc) ++ (p.recs.drop (Parcel.count p.head 6)).flatMap (fun r => r.toRR.enc)))
        12 256 0 (by omega) (by have := labels_lt n; omega) (by omega)
      dsimp only at ht ⊢
      rw [List.append_assoc, this]
      dsimp only
      simp only [List.length_append, h12, ht, Nat.zero_add, Nat.add_assoc]
  rw [hm, hbytes, ← List.append_assoc]
  exact answers_run hz junk _ soa _ _ hheld hf

theorem messages_run {zone : Name} (hz : PlainName zone) (junk : List UInt8 → UInt8) {rm : Nat} (more : List (List UInt8)) :
    ∀ {ps : List Parcel} {cs : List (List UInt8)} (soa : Nat), List.Forall₂ (Arrives rm) ps cs →
    (∀ r ∈ (run soa (allAnswers ps)).1, Fits zone r) → ((run soa (allAnswers ps)).2 = none ∨ more = []) →
    ∃ out fin, Prints zone (run soa (allAnswers ps)).1 out ∧ (fin = [] ∨ Ends fin) ∧
      messages (encName zone) junk rm (cs ++ more) soa = (out ++ fin, .exit 0) := by
  intro ps cs soa h
  induction h generalizing soa with
  | nil =>
    intro hf hm
    rcases hm with hm | rfl
    · cases hm
    · exact ⟨[], [], .nil, .inl rfl, rfl⟩
  | @cons p c ps cs ha h ih =>
    intro hf hm
    have hra := run_append (Spec.Transfer.answers p) (allAnswers ps) soa
    have he : allAnswers (p :: ps) = Spec.Transfer.answers p ++ allAnswers ps := by simp [allAnswers]
    rw [he] at hf hm ⊢
    rw [List.cons_append, messages]
    cases hs : (run soa (Spec.Transfer.answers p)).2 with
    | none =>
      rw [hs] at hra
      dsimp only at hra
      rw [hra] at hf ⊢
      obtain ⟨out, h1, h2⟩ := message_run hz junk ha hf
      rw [hs] at h2
      obtain ⟨fin, h3, h4⟩ := h2
      rw [h4]
      exact ⟨out, fin, h1, .inr h3, rfl⟩
    | some s =>
      rw [hs] at hra
      dsimp only at hra
      rw [hra] at hf hm ⊢
      obtain ⟨out, h1, h2⟩ := message_run hz junk ha fun r hr => hf r (List.mem_append_left _ hr)
      rw [hs] at h2
      dsimp only at h2
      obtain ⟨out', fin, h3, h4, h5⟩ := ih s (fun r hr => hf r (List.mem_append_right _ hr)) hm
      refine ⟨out ++ out', fin, h1.append h3, h4, ?_⟩
      rw [h2, andThen]
      dsimp only
      rw [h5, List.append_assoc]

end Fetch
end Mara
