import Verif.Mara.DecompProps
import Verif.Mara.CompExamples
/-!
# Property C78: what has been compressed is decompressed again

With examples, and a message with a name of more than 255 bytes.
-/

namespace Mara
namespace Decomp

open Spec
open Dw (Res)
open Comp (Firm compress nameOk_dec exMsg exMsg_sound)

theorem firm_by {m : Mem} {i : Nat} {ls : Name} (h : Firm m i ls) :
    ∃ n, NameBy m n i ls ∧ n ≤ 2 * ls.length + 1 ∧ ((∃ z, m i = some z ∧ ¬ 192 ≤ z) → ls ≠ [] → n ≤ 2 * ls.length) := by
  induction h with
  | root h => exact ⟨1, .root h, by simp, fun _ hne => absurd rfl hne⟩
  | @label i l ls hl _ ih =>
    obtain ⟨n, h1, h2, _⟩ := ih
    exact ⟨n + 1, .label hl h1, by simp; omega, fun _ _ => by simp; omega⟩
  | @pointer i x y z ls hx h1 hy hv h12 _ hz h192 hne _ ih =>
    obtain ⟨n, g1, g2, g3⟩ := ih
    have := g3 ⟨z, hz, h192⟩ hne
    refine ⟨n + 1, .pointer hx h1 hy hv h12 g1, by omega, ?_⟩
    rintro ⟨w, hw, hw'⟩ _
    rw [hx] at hw
    cases hw
    exact absurd h1 hw'

theorem two_per_label : ∀ {ls : Name}, LabelsOk ls → 2 * ls.length + 1 ≤ (encName ls).length
  | [], _ => by simp [encName, encLabels]
  | l :: ls, h => by
    have := two_per_label h.tail
    have h1 := h.head
    rw [Lookup.encName_cons_length, List.length_cons]
    omega

theorem firm_legible {m : Mem} {i : Nat} {ls : Name} (hok : NameOk ls) (h : Firm m i ls) : Legible m i ls := by
  obtain ⟨n, h1, h2, _⟩ := firm_by h
  have := two_per_label hok.1
  have := hok.2
  exact ⟨hok.2, n, by omega, h1⟩

theorem firms_legible {m : Mem} {i e : Nat} {ns : List Name} (h : NamesVia (Firm m) m i ns e) : (∀ n ∈ ns, NameOk n) → NamesVia (Legible m) m i ns e := by
  induction h with
  | nil => intro _; exact .nil
  | cons a b _ ih => intro hok; exact .cons (firm_legible (hok _ (by simp)) a) b (ih fun n hn => hok n (by simp [hn]))

theorem frecs_legible {m : Mem} {i e : Nat} {rs : List Rec} (h : RecsVia (Firm m) m i rs e) : (∀ r ∈ rs, r.Sound) → RecsVia (Legible m) m i rs e := by
  induction h with
  | nil => intro _; exact .nil
  | cons hr _ ih =>
    intro hs
    have hs0 := hs _ List.mem_cons_self
    obtain ⟨a, k, h1, h2, h3, h4, h5, h6, h7, h8, h9⟩ := hr.at_
    exact .cons ⟨a, k, firm_legible hs0.name h1, h2, h3, h4, h5, h6, firms_legible h7 hs0.names, h8, h9⟩ (ih fun r hr => hs r (by simp [hr]))

/-- The same message, its header with the counts. -/
def ofMsg (p : Msg) : Parcel := ⟨p.header, some (p.qname, be16 p.qtype ++ be16 p.qclass), p.all⟩

theorem ofMsg_bytes (p : Msg) : (ofMsg p).bytes = p.bytes := by
  simp [Parcel.bytes, ofMsg, Msg.bytes, Msg.question]

theorem ofMsg_ok {p : Msg} (hp : p.Sound) : (ofMsg p).Ok := by
  obtain ⟨h0, h1, h2, h3, hhead⟩ : ∃ a b c d, p.head = [a, b, c, d] := by
    have := hp.head
    match hh : p.head, this with
    | [a, b, c, d], _ => exact ⟨a, b, c, d, rfl⟩
  have hc : ∀ i n, (ofMsg p).head.getD i 0 = UInt8.ofNat (n / 256) → (ofMsg p).head.getD (i + 1) 0 = UInt8.ofNat n → n < 65536 →
      Parcel.count (ofMsg p).head i = n := by
    intro i n g1 g2 g3
    unfold Parcel.count
    rw [g1, g2, be16_num g3]
  have hh : (ofMsg p).head = [h0, h1, h2, h3] ++ be16 1 ++ be16 p.an.length ++ be16 p.ns.length ++ be16 p.ar.length := by
    simp [ofMsg, Msg.header, hhead]
  refine ⟨?_, ?_, ?_, ?_, fun r hr => (hp.recs r hr).ok, fun r hr => (hp.recs r hr).a, fun r hr => (hp.recs r hr).txt⟩
  · rw [hh]; simp [be16]
  · rw [hc 4 1 (by rw [hh]; rfl) (by rw [hh]; rfl) (by omega)]; rfl
  · intro x hx; cases hx; simp [be16]
  · rw [hc 6 p.an.length (by rw [hh]; rfl) (by rw [hh]; rfl) hp.an, hc 8 p.ns.length (by rw [hh]; rfl) (by rw [hh]; rfl) hp.ns,
      hc 10 p.ar.length (by rw [hh]; rfl) (by rw [hh]; rfl) hp.ar]
    simp [ofMsg, Msg.all, Nat.add_assoc]

theorem sameNames_len : ∀ {a b : List Name}, (∀ n ∈ a, NameOk n) → SameNames a b → (a.flatMap encName).length = (b.flatMap encName).length :=
  fun h1 h2 => (Comp.sameNames_enc_length h1 h2).2.1

theorem sameRec_rdata {r s : Rec} (hr : r.Sound) (h : SameRec r s) : r.rdata.length = s.rdata.length := by
  simp only [Rec.rdata, List.length_append]
  rw [h.lead, h.tail, sameNames_len hr.names h.names]

theorem sameRecs_enc : ∀ {a b : List Rec}, (∀ r ∈ a, r.Sound) → SameRecs a b →
    ((a.map Rec.toRR).flatMap RR.enc).length = ((b.map Rec.toRR).flatMap RR.enc).length ∧
      ∀ n, (∀ r ∈ a, r.rdata.length < n) → ∀ r ∈ b, r.rdata.length < n
  | [], [], _, _ => ⟨rfl, fun _ h => h⟩
  | [], _ :: _, _, h => by cases h
  | _ :: _, [], _, h => by cases h
  | x :: a, y :: b, ho, h => by
    obtain ⟨h1, h2⟩ := sameRecs_enc (fun r hr => ho r (by simp [hr])) h.2
    have hx := ho x (by simp)
    have hrd := sameRec_rdata hx h.1
    obtain ⟨_, hn, _⟩ := Comp.sameName_enc_length hx.name.1 h.1.name
    constructor
    · rw [List.map_cons, List.map_cons, List.flatMap_cons, List.flatMap_cons, List.length_append, List.length_append, h1, enc_eq, enc_eq]
      simp only [List.length_append]
      rw [hn, hrd, h.1.type, h.1.cls, h.1.ttl]
    · intro n hlt r hr
      rcases List.mem_cons.1 hr with rfl | hr
      · rw [← hrd]; exact hlt x (by simp)
      · exact h2 n (fun r hr => hlt r (by simp [hr])) r hr

theorem sameRecs_app : ∀ {a b a' b' : List Rec}, SameRecs a a' → SameRecs b b' → SameRecs (a ++ b) (a' ++ b')
  | [], _, [], _, _, h => h
  | [], _, _ :: _, _, h, _ => by cases h
  | _ :: _, _, [], _, h, _ => by cases h
  | _ :: _, _, _ :: _, _, h, h' => ⟨h.1, sameRecs_app h.2 h'⟩

theorem same_all {p q : Msg} (h : p.Same q) : SameRecs p.all q.all :=
  sameRecs_app (sameRecs_app h.an h.ns) h.ar

/-- **C78.**  A message that has been compressed is decompressed to the same message, but for the letter case of names. -/
theorem compress_decompress {p : Msg} (hp : p.Sound) {um om : Nat} (hum : p.bytes.length < um) {c : List UInt8}
    (hc : compress p.bytes um om = .ok c) {dm rm : Nat} (hdm : p.bytes.length < dm) (hrm : ∀ r ∈ p.all, r.rdata.length < rm) :
    ∃ p', p.Same p' ∧ decompress c dm rm = .ok p'.bytes := by
  rcases Comp.compress_step hp hum (om := om) with ⟨h, _⟩ | ⟨c', p', h1, h2, h3, h4, h5, h6⟩
  · rw [hc] at h; cases h
  · have : c = c' := by rw [hc] at h1; injection h1
    subst this
    have hs := Comp.same_sound hp h2
    refine ⟨p', h2, ?_⟩
    rw [← ofMsg_bytes]
    obtain ⟨e1, e2⟩ := sameRecs_enc hp.recs (same_all h2)
    have hhl : p'.header.length = 12 := by unfold Msg.header; simp [be16, hs.head]
    refine decompress_exact (ofMsg_ok hs) ⟨?_, ?_⟩ ?_ (e2 rm hrm)
    · exact List.IsPrefix.trans ⟨p'.question, rfl⟩ h3
    · refine ⟨_, _, ?_, frecs_legible h4 hs.recs, Nat.le_refl _⟩
      change ∃ k, _
      obtain ⟨t, ht⟩ := h3
      have e : c = p'.header ++ (encName p'.qname ++ (be16 p'.qtype ++ be16 p'.qclass ++ t)) := by
        rw [← ht]; unfold Msg.question; simp
      have hq := Comp.firm_labels (h := none) hs.qname.1 (c := p'.header) (by intro a ha; cases ha) ([0] ++ (be16 p'.qtype ++ be16 p'.qclass ++ t)) [] ?_
      have hq2 := Comp.endsAt_labels (h := none) hs.qname.1 (c := p'.header) (by intro a ha; cases ha) ([0] ++ (be16 p'.qtype ++ be16 p'.qclass ++ t)) _ (.root ?_)
      · have e' : p'.header ++ (encLabels p'.qname ++ ([0] ++ (be16 p'.qtype ++ be16 p'.qclass ++ t))) = c := by rw [e]; simp [encName]
        rw [List.append_nil, hhl, e'] at hq
        rw [hhl, e'] at hq2
        refine ⟨_, firm_legible hs.qname hq, hq2, ?_, ?_⟩
        · have := Comp.bytesAt_view (h := none) (c := p'.header ++ encName p'.qname) (by intro a ha; cases ha) (be16 p'.qtype ++ be16 p'.qclass) t
          rw [List.append_assoc p'.header, List.length_append, hhl, ← e] at this
          simpa [Comp.view, encName, Nat.add_assoc] using this
        · simp [Msg.question, hhl, encName, be16]; omega
      all_goals first
        | (have := Comp.view_right (h := none) (c := p'.header) (by intro a ha; cases ha) (encLabels p'.qname ++ ([0] ++ (be16 p'.qtype ++ be16 p'.qclass ++ t))) (encLabels p'.qname).length
           rw [this]; simp)
        | (refine .root ?_
           have := Comp.view_right (h := none) (c := p'.header) (by intro a ha; cases ha) (encLabels p'.qname ++ ([0] ++ (be16 p'.qtype ++ be16 p'.qclass ++ t))) (encLabels p'.qname).length
           rw [this]; simp)
    · rw [ofMsg_bytes]
      have : p'.bytes.length = p.bytes.length := by
        unfold Msg.bytes
        simp only [List.length_append, e1]
        unfold Msg.header Msg.question
        simp only [List.length_append, h2.head, h2.qname]
        rfl
      omega

/-- The message with MX, NS, A and TXT records. -/
example : ∃ c p', compress exMsg.bytes 1024 5000 = .ok c ∧ exMsg.Same p' ∧ decompress c 4096 4512 = .ok p'.bytes := by
  obtain ⟨c, _, h, -⟩ := Comp.compress_carries exMsg_sound (um := 1024) (om := 5000) (by decide) (by decide) (by decide) (by decide)
  obtain ⟨p', h1, h2⟩ := compress_decompress exMsg_sound (by decide) h (dm := 4096) (rm := 4512) (by decide) (by decide)
  exact ⟨c, p', h, h1, h2⟩

/-- A message without a question: `b.c. MX 10 a.b.c.`, the name in the data with a pointer to the first name. -/
def exBytes : List UInt8 :=
  [0, 1, 128, 0, 0, 0, 0, 1, 0, 0, 0, 0] ++ [1, 98, 1, 99, 0] ++ [0, 15, 0, 1, 0, 0, 0, 60, 0, 6] ++ [0, 10, 1, 97, 192, 12]

/-- What it says. -/
def exParcel : Parcel :=
  ⟨[0, 1, 128, 0, 0, 0, 0, 1, 0, 0, 0, 0], none, [⟨[[98], [99]], 15, [0, 1], 60, [0, 10], [[[97], [98], [99]]], []⟩]⟩

theorem exParcel_ok : exParcel.Ok := by
  refine ⟨rfl, rfl, fun x hx => (by cases hx), rfl, ?_, by decide, fun r hr h => ?_⟩
  rotate_left
  · cases List.mem_singleton.1 hr; cases h
  intro r hr
  cases List.mem_singleton.1 hr
  exact ⟨by decide, rfl, by decide, by decide, by decide⟩

/-- `b.c.` is at place 12. -/
theorem exName_by : NameBy (memOf exBytes) 3 12 [[98], [99]] :=
  .label ⟨by decide, by decide, rfl, by decide⟩ (.label ⟨by decide, by decide, rfl, by decide⟩ (.root rfl))

theorem bytesAt_dec {c l : List UInt8} {i : Nat} (h : decide (∀ j (h : j < l.length), c[i + j]? = some l[j]) = true) : BytesAt (memOf c) i l :=
  fun j hj => of_decide_eq_true h j hj

theorem exParcel_via : exParcel.Via (Legible (memOf exBytes)) exBytes := by
  refine ⟨⟨_, rfl⟩, 12, 33, rfl, .cons ⟨17, 33, ⟨by decide, 3, by decide, exName_by⟩, ?_, bytesAt_dec (by decide), by decide, by decide,
    bytesAt_dec (by decide), ?_, bytesAt_dec (by decide), rfl⟩ .nil, by decide⟩
  · exact .label (l := [98]) ⟨by decide, by decide, rfl, by decide⟩ (.label (l := [99]) ⟨by decide, by decide, rfl, by decide⟩ (.root rfl))
  · refine .cons (e := 33) ⟨by decide, 5, by decide, ?_⟩ ?_ .nil
    · exact .label ⟨by decide, by decide, rfl, by decide⟩ (.pointer (x := 192) (y := 12) rfl (by decide) rfl (by decide) (by decide) exName_by)
    · exact .label (l := [97]) ⟨by decide, by decide, rfl, by decide⟩ (.pointer (x := 192) rfl (by decide))

example : decompress exBytes 100 4512 = .ok exParcel.bytes := decompress_exact exParcel_ok exParcel_via (by decide) (by decide)

example : exParcel.bytes = [0, 1, 128, 0, 0, 0, 0, 1, 0, 0, 0, 0] ++ [1, 98, 1, 99, 0] ++ [0, 15, 0, 1, 0, 0, 0, 60, 0, 9] ++
    [0, 10, 1, 97, 1, 98, 1, 99, 0] := by decide

example : (∃ p : Parcel, p.Ok ∧ p.Via (NameIn (memOf exBytes)) exBytes ∧ exParcel.bytes = p.bytes) ∨ Overlong exBytes :=
  decompress_sound_partial (um := 100) (rm := 4512) (by decide) (by decide +kernel)

/-- Four labels of 63 bytes and one of one byte: 259 bytes. -/
def longName : Name := List.replicate 4 (List.replicate 63 97) ++ [[97]]

/-- A message with the address of this name. -/
def longParcel : Parcel :=
  ⟨[0, 1, 128, 0, 0, 0, 0, 1, 0, 0, 0, 0], none, [⟨longName, 1, [0, 1], 6, [], [], [10, 1, 2, 3]⟩]⟩

theorem longName_labels : LabelsOk longName := by
  have : ∀ l ∈ longName, 1 ≤ l.length ∧ l.length ≤ 63 := by decide +kernel
  exact this

/-- **C78, the exception.**  Here the name is copied, but what follows is read two bytes too early: an address becomes
data of a type that the message does not have, with another time to live. -/
theorem overlong_misread : longParcel.Ok ∧ longParcel.Via (NameIn (memOf longParcel.bytes)) longParcel.bytes ∧
    decompress longParcel.bytes 65536 4512 =
      .ok (longParcel.head ++ encName longName ++ [97, 0, 0, 1, 0, 1, 0, 0] ++ [0, 6] ++ [0, 4, 10, 1, 2, 3]) := by
  refine ⟨⟨rfl, rfl, fun x hx => (by cases hx), rfl, ?_, by decide, fun r hr h => ?_⟩, ?_, by decide +kernel⟩
  rotate_left
  · cases List.mem_singleton.1 hr; cases h
  rotate_left
  · intro r hr
    cases List.mem_singleton.1 hr
    exact ⟨by decide, rfl, by decide, by decide, by decide⟩
  · have e : longParcel.bytes = longParcel.head ++ (encName longName ++ ([0, 1, 0, 1, 0, 0, 0, 6, 0, 4, 10, 1, 2, 3])) := by decide +kernel
    refine ⟨⟨_, rfl⟩, 12, 285, rfl, .cons ⟨271, 281, ?_, ?_, ?_, by decide, by decide, ?_, .nil, ?_, rfl⟩ .nil, by decide +kernel⟩
    · rw [e]; exact Comp.nameIn_plain longName_labels _ _
    · have := Comp.endsAt_labels (h := none) longName_labels (c := longParcel.head) (by intro a ha; cases ha)
        ([0] ++ [0, 1, 0, 1, 0, 0, 0, 6, 0, 4, 10, 1, 2, 3]) 271 ?_
      · have e2 : longParcel.head ++ (encLabels longName ++ ([0] ++ [0, 1, 0, 1, 0, 0, 0, 6, 0, 4, 10, 1, 2, 3])) = longParcel.bytes := by
          rw [e]; simp [encName]
        rw [e2] at this
        exact this
      · have : 271 = longParcel.head.length + (encLabels longName).length + 1 := by decide +kernel
        rw [this]
        refine .root ?_
        rw [Comp.view_right (h := none) (by intro a ha; cases ha)]
        decide +kernel
    · exact (by decide +kernel : ∀ j (h : j < 10), (memOf longParcel.bytes (271 + j)) = some ([0, 1, 0, 1, 0, 0, 0, 6, 0, 4] : List UInt8)[j])
    · intro j hj; cases hj
    · exact (by decide +kernel : ∀ j (h : j < 4), (memOf longParcel.bytes (281 + j)) = some ([10, 1, 2, 3] : List UInt8)[j])

/-- A text whose length byte would be behind the end of the message: refused. -/
example : decompress ([0, 1, 128, 0, 0, 0, 0, 1, 0, 0, 0, 0] ++ [0] ++ [0, 16, 0, 1, 0, 0, 0, 60, 0, 1]) 100 4512 = .err := by decide +kernel

end Decomp
end Mara
