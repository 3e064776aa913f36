import Verif.Deadwood.IncomingModel
import Verif.Deadwood.DissectProps
import Verif.Deadwood.RemoteLemmas
import Verif.Deadwood.DnsStrProps
import Verif.Deadwood.CompressPacketProps
import Verif.Spec.Incoming
/-!
# Lemmas: from a packet to what the resolver works with
-/

namespace Dw
namespace Incoming
open DwStr Dissect Spec

/-- The bytes of `m` behind place `B` are those of `P`. -/
def Shifted (m P : Mem) (B : Nat) : Prop := ∀ j x, m (B + j) = some x → P j = some x

theorem Shifted.get {m P : Mem} {B : Nat} (h : Shifted m P B) {i : Nat} {x : UInt8} (hb : B ≤ i) (hx : m i = some x) :
    P (i - B) = some x := h _ _ (by rw [show B + (i - B) = i by omega]; exact hx)

theorem Shifted.labelAt {m P : Mem} {B : Nat} (h : Shifted m P B) {i : Nat} {l : List UInt8} (hb : B ≤ i)
    (hl : LabelAt m i l) : LabelAt P (i - B) l :=
  ⟨hl.pos, hl.le, h.get hb hl.len, fun j hj => by
    have := h.get (i := i + 1 + j) (by omega) (hl.bytes j hj)
    rwa [show i + 1 + j - B = i - B + 1 + j by omega] at this⟩

theorem Shifted.bytesAt {m P : Mem} {B : Nat} (h : Shifted m P B) {i : Nat} {l : List UInt8} (hb : B ≤ i)
    (hl : BytesAt m i l) : BytesAt P (i - B) l := fun j hj => by
  have := h.get (i := i + j) (by omega) (hl j hj)
  rwa [show i + j - B = i - B + j by omega] at this

theorem Shifted.endsAt {m P : Mem} {B : Nat} (h : Shifted m P B) {i e : Nat} (hb : B ≤ i) (g : EndsAt m i e) :
    EndsAt P (i - B) (e - B) := by
  induction g with
  | @root i g =>
    rw [show i + 1 - B = i - B + 1 by omega]
    exact .root (h.get hb g)
  | @pointer i x g g2 =>
    rw [show i + 2 - B = i - B + 2 by omega]
    exact .pointer (h.get hb g) g2
  | @label i l e hl _ ih =>
    refine .label (h.labelAt hb hl) ?_
    have := ih (by omega)
    rwa [show i + (l.length + 1) - B = i - B + (l.length + 1) by omega] at this

/-- A name without pointers in the question is read as it is. -/
theorem walk_question {P Q : Mem} {plen qlen i : Nat} {ls : List (List UInt8)} (h : PlainAt Q i ls) :
    Spec.NameAt P Q plen qlen ls.length true i ls := by
  induction h with
  | root h => exact ⟨true, _, .here, h⟩
  | label hl _ ih =>
    obtain ⟨b, j, w, e⟩ := ih
    exact ⟨b, j, .label hl w, e⟩

theorem plainAt_behind {Q : Mem} : ∀ {a b : List (List UInt8)} {i : Nat}, PlainAt Q i (a ++ b) →
    PlainAt Q (i + (encLabels a).length) b
  | [], b, i, h => by simpa [encLabels] using h
  | l :: a, b, i, h => by
    cases h with
    | label hl h =>
      have := plainAt_behind h
      have e : (encLabels (l :: a)).length = l.length + 1 + (encLabels a).length := by
        rw [encLabels_cons, List.length_append]; simp
      rw [e]
      rwa [Nat.add_assoc] at this

theorem nameFrom_known {m : Mem} {qn : List (List UInt8)} {n i : Nat} {ls : List (List UInt8)}
    (h : NameFrom m qn n i ls) : ∃ x, m i = some x := by
  cases h with
  | root h => exact ⟨_, h⟩
  | label h => exact ⟨_, h.len⟩
  | asked h => exact ⟨_, h⟩
  | behind h => exact ⟨_, h⟩

theorem lowered_same (n : List (List UInt8)) : SameName n (lowered n) := by
  unfold SameName lowered
  rw [List.map_map]
  apply List.map_congr_left
  intro l _
  simp only [Function.comp_apply, List.map_map]
  apply List.map_congr_left
  intro x _
  simp only [Function.comp_apply]
  unfold lower
  have : ∀ n : Fin 256, lower (lower (UInt8.ofNat n.val)) = lower (UInt8.ofNat n.val) := by decide +kernel
  have := this ⟨x.toNat, x.toNat_lt⟩
  simp only [UInt8.ofNat_toNat] at this
  exact this.symm

theorem lowered_enc (n : List (List UInt8)) : (encLabels (lowered n)).length = (encLabels n).length :=
  Remote.encLabels_lower_length n

/-- What a record says is read the same way where the question is a string of its own, in lower case. -/
theorem name_over {c : List UInt8} {P Q : Mem} {qn : List (List UInt8)} {plen qlen : Nat}
    (hP : Shifted (memOf c) P (16 + (encName qn).length)) (hQ : PlainAt Q 0 (lowered qn))
    (hp : c.length ≤ plen + (16 + (encName qn).length)) (hq : qlen = (encName qn).length + 2)
    {n i : Nat} {ls : List (List UInt8)} (h : NameFrom (memOf c) qn n i ls) (hb : 16 + (encName qn).length ≤ i) :
    ∃ ls', SameName ls ls' ∧ Spec.NameAt P Q plen qlen n false (i - (16 + (encName qn).length)) ls' := by
  have he : (encName qn).length = (encLabels qn).length + 1 := by simp [encName]
  induction h with
  | root h => exact ⟨[], rfl, false, _, .here, hP.get hb h⟩
  | @label n i l ls hl _ ih =>
    obtain ⟨ls', e, b', i', w, g⟩ := ih (by omega)
    refine ⟨l :: ls', ?_, b', i', .label (hP.labelAt hb hl) ?_, g⟩
    · unfold SameName at e ⊢; simp only [List.map_cons, e]
    · rwa [show i + (l.length + 1) - (16 + (encName qn).length) = i - (16 + (encName qn).length) + (l.length + 1) by omega] at w
  | @asked i x y a b hx h192 hy hv hab =>
    subst hab
    have hel : (encLabels (a ++ b)).length = (encLabels a).length + (encLabels b).length := by
      simp [encLabels]
    have hQ' : PlainAt Q ((encLabels a).length) (lowered b) := by
      have : lowered (a ++ b) = lowered a ++ lowered b := by simp [lowered]
      rw [this] at hQ
      have := plainAt_behind hQ
      rwa [Nat.zero_add, lowered_enc] at this
    obtain ⟨b', i', w, g⟩ := walk_question (P := P) (plen := plen) (qlen := qlen) hQ'
    rw [show (lowered b).length = b.length by simp [lowered]] at w
    refine ⟨lowered b, lowered_same b, b', i', .pointer (y := y) (hP.get hb hx) h192 ?_ ?_ w, g⟩
    · rw [show i - (16 + (encName (a ++ b)).length) + 1 = i + 1 - (16 + (encName (a ++ b)).length) by omega]
      exact hP.get (by omega) hy
    · rw [hv]
      unfold ptrTarget
      rw [if_pos (by omega), if_pos (by omega)]
      simp
  | @behind n i x y ls hx h192 hy hv hn ih =>
    obtain ⟨ls', e, b', i', w, g⟩ := ih hv
    refine ⟨ls', e, b', i', .pointer (y := y) (hP.get hb hx) h192 ?_ ?_ w, g⟩
    · rw [show i - (16 + (encName qn).length) + 1 = i + 1 - (16 + (encName qn).length) by omega]
      exact hP.get (by omega) hy
    · obtain ⟨z, hz⟩ := nameFrom_known hn
      have hz := (List.getElem?_eq_some_iff.1 hz).1
      unfold ptrTarget
      rw [if_neg (by omega), if_pos (by omega)]
      congr 2
      omega

section
variable {c : List UInt8} {P Q : Mem} {qn : List (List UInt8)} {plen qlen : Nat}

theorem names_over
    (hP : Shifted (memOf c) P (16 + (encName qn).length)) (hQ : PlainAt Q 0 (lowered qn))
    (hp : c.length ≤ plen + (16 + (encName qn).length)) (hq : qlen = (encName qn).length + 2)
    {i k : Nat} {ns : List (List (List UInt8))} (h : NamesVia (ReadFrom (memOf c) qn) (memOf c) i ns k)
    (hb : 16 + (encName qn).length ≤ i) :
    i ≤ k ∧ ∃ ns', SameNames ns ns' ∧
      NamesAt P Q plen qlen (i - (16 + (encName qn).length)) ns' (k - (16 + (encName qn).length)) := by
  induction h with
  | nil => exact ⟨Nat.le_refl _, [], trivial, .nil⟩
  | cons h he _ ih =>
    obtain ⟨n, hn, h⟩ := h
    have hlt := endsAt_lt he
    obtain ⟨h1, ns', h2, h3⟩ := ih (by omega)
    obtain ⟨ls', e, w⟩ := name_over hP hQ hp hq h hb
    exact ⟨by omega, ls' :: ns', ⟨e, h2⟩, .cons hn w (hP.endsAt hb he) h3⟩

theorem rec_over
    (hP : Shifted (memOf c) P (16 + (encName qn).length)) (hQ : PlainAt Q 0 (lowered qn))
    (hp : c.length ≤ plen + (16 + (encName qn).length)) (hq : qlen = (encName qn).length + 2)
    {i e : Nat} {r : Rec} (h : RecVia (ReadFrom (memOf c) qn) (memOf c) i r e)
    (hb : 16 + (encName qn).length ≤ i) :
    i ≤ e ∧ ∃ r', SameRec r r' ∧
      RecAt P Q plen qlen (i - (16 + (encName qn).length)) r' (e - (16 + (encName qn).length)) := by
  obtain ⟨a, k, ⟨n, hn, h1⟩, h2, h3, h4, h5, h6, h7, h8, h9⟩ := h.at_
  have hlt := endsAt_lt h2
  obtain ⟨ls', e1, w⟩ := name_over hP hQ hp hq h1 hb
  obtain ⟨hk, ns', e2, h7'⟩ := names_over hP hQ hp hq h7 (by omega)
  have key : e - (16 + (encName qn).length) - (a - (16 + (encName qn).length) + 10) = e - (a + 10) := by omega
  refine ⟨by omega, { r with name := ls', names := ns' }, ⟨e1, rfl, rfl, rfl, rfl, e2, rfl⟩,
    ⟨n, a - (16 + (encName qn).length), k - (16 + (encName qn).length), hn, w, hP.endsAt hb h2, ?_, ?_, ?_, ?_, ?_, ?_⟩⟩
  · rw [key]
    exact hP.bytesAt (by omega) h3
  · rw [key]; exact h4
  · rw [show a - (16 + (encName qn).length) + 10 = a + 10 - (16 + (encName qn).length) by omega]
    exact hP.bytesAt (by omega) h6
  · rw [show a - (16 + (encName qn).length) + 10 + r.lead.length = a + 10 + r.lead.length - (16 + (encName qn).length) by omega]
    exact h7'
  · exact hP.bytesAt (by omega) h8
  · show e - _ = k - _ + r.tail.length
    omega

theorem recs_over
    (hP : Shifted (memOf c) P (16 + (encName qn).length)) (hQ : PlainAt Q 0 (lowered qn))
    (hp : c.length ≤ plen + (16 + (encName qn).length)) (hq : qlen = (encName qn).length + 2)
    {i e : Nat} {rs : List Rec} (h : RecsVia (ReadFrom (memOf c) qn) (memOf c) i rs e)
    (hb : 16 + (encName qn).length ≤ i) :
    i ≤ e ∧ ∃ rs', SameRecs rs rs' ∧
      RecsAt P Q plen qlen (i - (16 + (encName qn).length)) rs' (e - (16 + (encName qn).length)) := by
  induction h with
  | nil => exact ⟨Nat.le_refl _, [], trivial, .nil⟩
  | cons h _ ih =>
    obtain ⟨h1, r', e1, g1⟩ := rec_over hP hQ hp hq h hb
    obtain ⟨h2, rs', e2, g2⟩ := ih (by omega)
    exact ⟨by omega, r' :: rs', ⟨e1, e2⟩, .cons g1 g2⟩

end

/-! ### `dw_packet_to_cache` -/

theorem hack_usable {packet : List UInt8} {count : Nat} (h : count + 3 ≤ packet.length) (hc : count < 134217727) :
    Usable (hack packet count) :=
  ⟨by unfold WF hack; simp only [List.length_take]; omega, by simp [hack], by simp only [hack]; omega⟩

theorem hack_contents (c spare : List UInt8) : (hack (c ++ spare) c.length).contents = c := by
  unfold hack contents
  simp only [List.take_take]
  rw [Nat.min_eq_left (by omega), List.take_left]

theorem pushIgn_exact {s : DwStr} (v : Nat) (h : Usable s) (hf : s.contents.length + 2 < s.max) :
    ∃ s', pushIgn v s = .ok s' ∧ Usable s' ∧ s'.max = s.max ∧ s'.contents = s.contents ++ be16 v := by
  obtain ⟨s', e, h1, h2, h3⟩ := (pushU16_exact v h).2 hf
  exact ⟨s', by unfold pushIgn; rw [e], h1, h2, by rw [h3]; simp [be16]⟩

/-- What is left of a packet: the records, and how many there are. -/
theorem packetToCache_exact {s : DwStr} (hs : Usable s) {p : Msg} (hc : p.head.length = 4)
    (hn : LabelsOk p.qname) (hl : p.qname.length < 200)
    (h1 : p.an.length < 65536) (h2 : p.ns.length < 65536) (h3 : p.ar.length < 65536) (hsz : s.len < 1000000)
    {rest : List UInt8} (hf : s.contents = p.header ++ p.question ++ rest) (type : UInt8) (junk : List UInt8) :
    ∃ o, packetToCache s type junk = .ok o ∧ Usable o ∧
      o.contents = rest ++ (be16 p.an.length ++ be16 p.ns.length ++ be16 p.ar.length ++ [type]) := by
  have hcl := hs.clen
  have f1 : s.fetchU16 6 = .ok p.an.length := by
    have := bytesAt_mid (s := s) (pre := p.head ++ be16 1) (l := be16 p.an.length)
      (post := be16 p.ns.length ++ be16 p.ar.length ++ p.question ++ rest) (by rw [hf]; simp [Msg.header])
    rw [List.length_append, be16_length, hc] at this
    exact fetchU16_at hs this h1
  have f2 : s.fetchU16 8 = .ok p.ns.length := by
    have := bytesAt_mid (s := s) (pre := p.head ++ be16 1 ++ be16 p.an.length) (l := be16 p.ns.length)
      (post := be16 p.ar.length ++ p.question ++ rest) (by rw [hf]; simp [Msg.header])
    rw [List.length_append, List.length_append, be16_length, be16_length, hc] at this
    exact fetchU16_at hs this h2
  have f3 : s.fetchU16 10 = .ok p.ar.length := by
    have := bytesAt_mid (s := s) (pre := p.head ++ be16 1 ++ be16 p.an.length ++ be16 p.ns.length) (l := be16 p.ar.length)
      (post := p.question ++ rest) (by rw [hf]; simp [Msg.header])
    rw [List.length_append, List.length_append, List.length_append, be16_length, be16_length, be16_length, hc] at this
    exact fetchU16_at hs this h3
  have hh : p.header.length = 12 := by
    simp only [Msg.header, List.length_append, be16_length, hc]
  have f4 : s.getDnEnd 12 = .ok (12 + (encName p.qname).length) := by
    refine getDnEnd_plain hs (PlainAt.of_encName hn ?_) hl
    have := bytesAt_mid (s := s) (pre := p.header) (l := encName p.qname)
      (post := be16 p.qtype ++ be16 p.qclass ++ rest) (by rw [hf]; simp [Msg.question])
    rwa [hh] at this
  have hlen : s.contents.length = 12 + (encName p.qname).length + 4 + rest.length := by
    rw [hf]
    simp only [Msg.question, List.length_append, be16_length, hh]
    omega
  obtain ⟨o0, e0, u0, m0, c0⟩ := substr_in hs (12 + (encName p.qname).length + 4) rest.length 7 junk (by omega) (by omega)
  have hd : s.contents.drop (12 + (encName p.qname).length + 4) = rest := by
    rw [hf]
    apply List.drop_left'
    simp only [Msg.question, List.length_append, be16_length, hh]
    omega
  rw [hd, List.take_length] at c0
  have e0' : s.substr ((12 + (encName p.qname).length + 4 : Nat) : Int) (-1) 7 junk = .ok o0 := by
    rw [substr_minus1 (by omega), show s.len - (12 + (encName p.qname).length + 4) = rest.length by omega]
    exact e0
  obtain ⟨o1, e1, u1, m1, c1⟩ := pushIgn_exact p.an.length u0 (by rw [c0, m0]; omega)
  obtain ⟨o2, e2, u2, m2, c2⟩ := pushIgn_exact p.ns.length u1 (by
    rw [c1, m1, m0, c0, List.length_append, be16_length]; omega)
  obtain ⟨o3, e3, u3, m3, c3⟩ := pushIgn_exact p.ar.length u2 (by
    rw [c2, m2, m1, m0, c1, c0, List.length_append, List.length_append, be16_length, be16_length]; omega)
  obtain ⟨o4, e4, u4, m4, c4⟩ := (addchar_exact type u3).2 (by
    rw [c3, m3, m2, m1, m0, c2, c1, c0]
    simp only [List.length_append, be16_length]; omega)
  refine ⟨o4, ?_, u4, by rw [c4, c3, c2, c1, c0]; simp⟩
  unfold packetToCache
  rw [f1, Res.ok_bind, f2, Res.ok_bind, f3, Res.ok_bind, f4, Res.ok_bind, e0', Res.ok_bind, e1, Res.ok_bind, e2, Res.ok_bind,
    e3, Res.ok_bind]
  unfold addcharIgn
  rw [e4]

end Incoming
end Dw
