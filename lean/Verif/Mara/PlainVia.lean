import Verif.Spec.Unpacked
import Verif.Spec.Packed
/-!
# Messages whose names are written out can be read
-/

namespace Mara
namespace PlainVia

open Spec

theorem bytesAt_mid {c : List UInt8} {i : Nat} (pre l rest : List UInt8) (hc : c = pre ++ (l ++ rest)) (hi : i = pre.length) : BytesAt (memOf c) i l := by
  subst hc hi
  intro j hj
  show (pre ++ (l ++ rest))[pre.length + j]? = _
  rw [List.getElem?_append_right (by omega), Nat.add_sub_cancel_left, List.getElem?_append_left hj, List.getElem?_eq_getElem hj]

theorem labelAt_mid {c : List UInt8} {i : Nat} (pre l rest : List UInt8) (hl : 1 ≤ l.length ∧ l.length ≤ 63)
    (hc : c = pre ++ (UInt8.ofNat l.length :: (l ++ rest))) (hi : i = pre.length) : LabelAt (memOf c) i l := by
  refine ⟨hl.1, hl.2, ?_, ?_⟩
  · subst hc hi
    show (pre ++ _)[pre.length]? = _
    simp
  · exact bytesAt_mid (pre ++ [UInt8.ofNat l.length]) l rest (by rw [hc]; simp) (by rw [hi]; simp)

theorem name_mid : ∀ (n : List (List UInt8)) {c : List UInt8} {i : Nat} (pre rest : List UInt8), LabelsOk n → c = pre ++ (encName n ++ rest) → i = pre.length →
    NameBy (memOf c) (n.length + 1) i n ∧ EndsAt (memOf c) i (i + (encName n).length)
  | [], c, i, pre, rest, _, hc, hi => by
    have h0 : memOf c i = some 0 := by
      subst hc hi
      show (pre ++ _)[pre.length]? = _
      simp [encName, encLabels]
    exact ⟨.root h0, .root h0⟩
  | l :: n, c, i, pre, rest, h, hc, hi => by
    have hl := h l List.mem_cons_self
    have hc' : c = pre ++ (UInt8.ofNat l.length :: (l ++ (encName n ++ rest))) := by rw [hc, encName_cons]; simp
    have h1 := labelAt_mid pre l _ hl hc' hi
    obtain ⟨h2, h3⟩ := name_mid n (c := c) (i := i + (l.length + 1)) (pre ++ UInt8.ofNat l.length :: l) rest (fun x hx => h x (List.mem_cons_of_mem _ hx))
      (by rw [hc']; simp) (by rw [hi]; simp)
    refine ⟨.label h1 h2, ?_⟩
    have e : i + (encName (l :: n)).length = i + (l.length + 1) + (encName n).length := by
      rw [encName_cons]
      simp
      omega
    rw [e]
    exact .label h1 h3

theorem labels_short (n : List (List UInt8)) : n.length < (encName n).length := by
  induction n with
  | nil => simp [encName, encLabels]
  | cons l n ih =>
    rw [encName_cons]
    simp
    omega

theorem legible_mid {n : List (List UInt8)} {c : List UInt8} {i : Nat} (pre rest : List UInt8) (h : LabelsOk n) (hs : (encName n).length ≤ 255)
    (hc : c = pre ++ (encName n ++ rest)) (hi : i = pre.length) : Legible (memOf c) i n ∧ EndsAt (memOf c) i (i + (encName n).length) := by
  obtain ⟨h1, h2⟩ := name_mid n pre rest h hc hi
  have := labels_short n
  exact ⟨⟨hs, n.length + 1, by omega, h1⟩, h2⟩

/-- Names that can be written. -/
def Short (n : List (List UInt8)) : Prop := LabelsOk n ∧ (encName n).length ≤ 255

theorem names_mid {c : List UInt8} : ∀ (ns : List (List (List UInt8))) {i : Nat} (pre rest : List UInt8), (∀ n ∈ ns, Short n) →
    c = pre ++ (ns.flatMap encName ++ rest) → i = pre.length → NamesVia (Legible (memOf c)) (memOf c) i ns (i + (ns.flatMap encName).length)
  | [], _, _, _, _, _, _ => .nil
  | n :: ns, i, pre, rest, h, hc, hi => by
    obtain ⟨h1, h2⟩ := legible_mid (n := n) (c := c) (i := i) pre (ns.flatMap encName ++ rest) (h n List.mem_cons_self).1 (h n List.mem_cons_self).2
      (by rw [hc]; simp) hi
    have h3 := names_mid (c := c) ns (i := i + (encName n).length) (pre ++ encName n) rest (fun x hx => h x (List.mem_cons_of_mem _ hx)) (by rw [hc]; simp)
      (by rw [hi]; simp)
    rw [List.flatMap_cons, List.length_append, ← Nat.add_assoc]
    exact .cons h1 h2 h3

theorem be16_length (n : Nat) : (be16 n).length = 2 := rfl
theorem be32_length (n : Nat) : (be32 n).length = 4 := rfl

theorem rec_mid {c : List UInt8} {r : Rec} {i : Nat} (pre rest : List UInt8) (hok : r.Ok) (hn : Short r.name) (hns : ∀ n ∈ r.names, Short n)
    (hc : c = pre ++ (r.toRR.enc ++ rest)) (hi : i = pre.length) : RecVia (Legible (memOf c)) (memOf c) i r (i + r.toRR.enc.length) := by
  have henc : r.toRR.enc = encName r.name ++ (be16 r.type ++ (r.cls ++ (be32 r.ttl ++ (be16 r.rdata.length ++ (r.lead ++ (r.names.flatMap encName ++ r.tail)))))) := by
    simp [RR.enc, Rec.toRR, Rec.rdata]
  have hrd : r.rdata.length = r.lead.length + (r.names.flatMap encName).length + r.tail.length := by
    simp [Rec.rdata]
    omega
  have hcls := hok.cls
  have hlen : r.toRR.enc.length = (encName r.name).length + 10 + r.rdata.length := by
    rw [henc]
    simp only [List.length_append, be16_length, be32_length, hcls]
    omega
  rw [henc] at hc
  obtain ⟨h1, h2⟩ := legible_mid (n := r.name) (c := c) (i := i) pre _ hn.1 hn.2 (by rw [hc, List.append_assoc]) hi
  have hfour : (be16 r.type ++ r.cls ++ be32 r.ttl ++ be16 r.rdata.length).length = 10 := by
    simp only [List.length_append, be16_length, be32_length, hcls]
  have e1 : i + r.toRR.enc.length - (i + (encName r.name).length + 10) = r.rdata.length := by omega
  refine ⟨i + (encName r.name).length, i + (encName r.name).length + 10 + r.lead.length + (r.names.flatMap encName).length, h1, h2, ?_, ?_, by omega, ?_, ?_, ?_, by omega⟩
  · rw [e1]
    exact bytesAt_mid (pre ++ encName r.name) _ (r.lead ++ (r.names.flatMap encName ++ r.tail) ++ rest) (by rw [hc]; simp) (by rw [hi]; simp)
  · have := hok.size
    omega
  · exact bytesAt_mid (pre ++ encName r.name ++ (be16 r.type ++ r.cls ++ be32 r.ttl ++ be16 r.rdata.length)) _ (r.names.flatMap encName ++ r.tail ++ rest)
      (by rw [hc]; simp) (by rw [List.length_append, hfour, hi]; simp)
  · exact names_mid r.names (pre ++ encName r.name ++ (be16 r.type ++ r.cls ++ be32 r.ttl ++ be16 r.rdata.length) ++ r.lead) (r.tail ++ rest) hns
      (by rw [hc]; simp) (by rw [List.length_append, List.length_append, hfour, hi]; simp)
  · exact bytesAt_mid (pre ++ encName r.name ++ (be16 r.type ++ r.cls ++ be32 r.ttl ++ be16 r.rdata.length) ++ r.lead ++ r.names.flatMap encName) _ rest
      (by rw [hc]; simp) (by rw [List.length_append, List.length_append, List.length_append, hfour, hi]; simp)

theorem recs_mid {c : List UInt8} : ∀ (rs : List Rec) {i : Nat} (pre rest : List UInt8), (∀ r ∈ rs, r.Ok ∧ Short r.name ∧ ∀ n ∈ r.names, Short n) →
    c = pre ++ ((rs.map Rec.toRR).flatMap RR.enc ++ rest) → i = pre.length →
    RecsVia (Legible (memOf c)) (memOf c) i rs (i + ((rs.map Rec.toRR).flatMap RR.enc).length)
  | [], _, _, _, _, _, _ => .nil
  | r :: rs, i, pre, rest, h, hc, hi => by
    have hr := h r List.mem_cons_self
    have h1 := rec_mid (c := c) (r := r) (i := i) pre ((rs.map Rec.toRR).flatMap RR.enc ++ rest) hr.1 hr.2.1 hr.2.2 (by rw [hc]; simp) hi
    have h2 := recs_mid (c := c) rs (i := i + r.toRR.enc.length) (pre ++ r.toRR.enc) rest (fun x hx => h x (List.mem_cons_of_mem _ hx)) (by rw [hc]; simp) (by rw [hi]; simp)
    rw [List.map_cons, List.flatMap_cons, List.length_append, ← Nat.add_assoc]
    exact .cons h1 h2

/-- A message with all names written out is read as it is. -/
theorem plain_via {p : Parcel} (hp : p.Ok) (hq : ∀ x, p.question = some x → Short x.1) (hr : ∀ r ∈ p.recs, Short r.name ∧ ∀ n ∈ r.names, Short n) :
    p.Via (Legible (memOf p.bytes)) p.bytes := by
  have hh := hp.head
  have hrs : ∀ r ∈ p.recs, r.Ok ∧ Short r.name ∧ ∀ n ∈ r.names, Short n := fun r h => ⟨hp.data r h, hr r h⟩
  refine ⟨⟨_, by unfold Parcel.bytes; rw [List.append_assoc]⟩, ?_⟩
  cases hx : p.question with
  | none =>
    have hb : p.bytes = p.head ++ ((p.recs.map Rec.toRR).flatMap RR.enc ++ []) := by
      unfold Parcel.bytes
      rw [hx]
      simp
    refine ⟨12, _, rfl, recs_mid p.recs p.head [] hrs hb hh.symm, ?_⟩
    rw [hb]
    simp
    omega
  | some x =>
    obtain ⟨n, t⟩ := x
    have hs := hq _ hx
    have hb : p.bytes = p.head ++ (encName n ++ (t ++ (p.recs.map Rec.toRR).flatMap RR.enc)) := by
      unfold Parcel.bytes
      rw [hx]
      simp
    obtain ⟨h1, h2⟩ := legible_mid (c := p.bytes) (i := 12) p.head _ hs.1 hs.2 hb hh.symm
    refine ⟨12 + (encName n).length + t.length, _, ⟨12 + (encName n).length, h1, h2, ?_, rfl⟩,
      recs_mid p.recs (p.head ++ encName n ++ t) [] hrs (by rw [hb]; simp) (by simp [hh]; omega), ?_⟩
    · exact bytesAt_mid (p.head ++ encName n) t ((p.recs.map Rec.toRR).flatMap RR.enc) (by rw [hb]; simp) (by simp [hh])
    · rw [hb]
      simp
      omega

end PlainVia
end Mara
