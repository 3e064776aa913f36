import Verif.Deadwood.TrustModel
import Verif.Deadwood.TrustPacket
import Verif.Deadwood.Name2Props
import Mathlib.Tactic.SplitIfs
/-!
# Lemmas: whom requests ask
-/

namespace Dw
namespace Trust
open DwStr Spec Dissect Incoming
open Acl (rd wr)

theorem be16_inj {a b : Nat} (ha : a < 65536) (hb : b < 65536) (h : be16 a = be16 b) : a = b := by
  simp only [be16, List.cons.injEq, and_true] at h
  have h1 := congrArg UInt8.toNat h.1
  have h2 := congrArg UInt8.toNat h.2
  simp only [UInt8.toNat_ofNat'] at h1 h2
  omega

theorem key_inj {a b : List (List UInt8)} (ha : Spec.NameOk a) (hb : Spec.NameOk b) {t u : Nat} (ht : t < 65536) (hu : u < 65536)
    (h : encName a ++ be16 t = encName b ++ be16 u) : a = b ∧ t = u := by
  have e := SR.encName_inj ha.1 hb.1 h
  subst e
  exact ⟨rfl, be16_inj ht hu (List.append_cancel_left h)⟩

theorem below_refl (a : List (List UInt8)) : Below a a := List.suffix_rfl

theorem below_trans {a b c : List (List UInt8)} (h : Below a b) (h' : Below b c) : Below a c := List.IsSuffix.trans h' h

theorem below_drop (a : List (List UInt8)) (k : Nat) : Below a (a.drop k) := by
  unfold Below
  rw [List.map_drop]
  exact List.drop_suffix _ _

theorem get_mem {c : List Entry} {key v : List UInt8} (h : get c key = some v) : ∃ e ∈ c, e.key = key ∧ e.value = v := by
  unfold get at h
  cases hf : c.find? (fun e => e.key == key) with
  | none => rw [hf] at h; cases h
  | some e =>
    rw [hf] at h
    cases h
    exact ⟨e, List.mem_of_find?_eq_some hf, by simpa using List.find?_some hf, rfl⟩

theorem mem_put {c : List Entry} {key v : List UInt8} {e : Entry} (h : e ∈ put c key v) : e ∈ c ∨ e = ⟨key, v, false⟩ := by
  unfold put at h
  split at h
  · exact .inl h
  · rcases List.mem_cons.1 h with h | h
    · exact .inr h
    · exact .inl (List.mem_of_mem_filter h)

theorem mem_putAll {ps : List Put} : ∀ {c : List Entry} {e : Entry}, e ∈ putAll c ps → e ∈ c ∨ ∃ p ∈ ps, e = ⟨p.key, p.value, false⟩ := by
  induction ps with
  | nil => intro c e h; exact .inl h
  | cons p ps ih =>
    intro c e h
    rcases ih (c := put c p.key p.value) h with h | ⟨q, hq, he⟩
    · rcases mem_put h with h | h
      · exact .inl h
      · exact .inr ⟨p, by simp, h⟩
    · exact .inr ⟨q, by simp [hq], he⟩

/-! ### Whom to ask -/

theorem climb_found (c : List Entry) (junk : List UInt8) : ∀ (n : Nat) (ls : List (List UInt8)) (r : DwStr), Usable r → LabelsOk ls →
    r.contents = encName ls ++ be16 65395 → ∀ l, climb c junk n r = .ok (some l) →
    ∃ k, get c (encName (ls.drop k) ++ be16 65395) = some l
  | 0, _, _, _, _, _, l, h => by cases h
  | n + 1, ls, r, hr, hl, hc, l, h => by
    unfold climb at h
    cases hg : get c r.contents with
    | some v =>
      rw [hg] at h
      cases h
      exact ⟨0, by rw [← hg, hc]; rfl⟩
    | none =>
      rw [hg] at h
      dsimp only at h
      obtain ⟨d1, -, d3⟩ := dnslabelChop_exact hr junk
      cases ls with
      | nil =>
        rw [d3 0 (be16 65395) (by rw [hc]; rfl) (.inl rfl)] at h
        cases h
      | cons x xs =>
        have hx := hl x (by simp)
        obtain ⟨o, e1, e2, e3⟩ := d1 x (encName xs ++ be16 65395) (by rw [hc]; simp [encName, encLabels]) hx.1 hx.2
        obtain ⟨o', f1, f2, -, f3⟩ := copy_exact e2 junk
        rw [e1] at h
        dsimp only at h
        rw [f1] at h
        obtain ⟨k, hk⟩ := climb_found c junk n xs o' f2 (fun y hy => hl y (by simp [hy])) (by rw [f3, e3]) l h
        exact ⟨k + 1, by simpa using hk⟩

/-- The servers a question is sent to first are those of a zone that the name is in. -/
theorem upstreamNs_found {c : List Entry} {q : List (List UInt8)} {t : Nat} (hq : Spec.NameOk q) {junk l : List UInt8} {up : Bool}
    (h : upstreamNs c (encName q ++ be16 t) junk = .ok (some (l, up))) :
    ∃ k, get c (encName (q.drop k) ++ be16 65395) = some l := by
  have hu : Usable (Remote.dstr (encName q ++ be16 t)) := Remote.dstr_usable (by
    have := hq.2; simp only [List.length_append, be16_length]; omega)
  unfold upstreamNs at h
  obtain ⟨r, e1, e2, e3, e4⟩ := copy_exact hu junk
  rw [e1, Res.ok_bind] at h
  rw [Remote.dstr_contents] at e4
  obtain ⟨r', f1, f2, f3, f4⟩ := (popU16_exact e2).2 (encName q) (UInt8.ofNat (t / 256)) (UInt8.ofNat t) (by rw [e4]; rfl)
  rw [f1, Res.ok_bind] at h
  dsimp only at h
  obtain ⟨r'', g1, g2, -, g4⟩ := (pushU16_exact 65395 f2).2 (by
    rw [f3, e3, f4]; simp [Remote.dstr, be16_length])
  rw [g1, Res.ok_bind] at h
  rw [f4] at g4
  cases hc : climb c junk 260 r'' with
  | err => rw [hc] at h; cases h
  | ub => rw [hc] at h; cases h
  | ok o =>
    rw [hc, Res.ok_bind] at h
    cases o with
    | none => cases h
    | some v =>
      cases h
      exact climb_found c junk 260 q r'' g2 hq.1 g4 l hc

theorem findAddr_blank (cfg : Cfg) (c : List Entry) : ∀ (ts : List (List Nat × Nat)) (cur : Option Nat),
    findAddr cfg c (Remote.dstr [0, 16]) ts cur = .ok (.nobody, cur)
  | [], _ => rfl
  | r :: rs, cur => by
    have : getAddr cfg c (Remote.dstr [0, 16]) cur r = .ok (.nobody, cur) := by
      have h : Ns.nsGetip (Remote.dstr [0, 16]) cur r.1 = .err := rfl
      unfold getAddr
      rw [h]
    unfold findAddr
    rw [this, Res.ok_bind]
    simp only [if_pos]
    exact findAddr_blank cfg c rs cur

theorem entryName_name {cfg : Cfg} {c : List Entry} {list : DwStr} {o r : Nat} {q : List UInt8}
    (h : entryName cfg c list o r = .ok (.name q)) : ∃ n, q = n ++ be16 cfg.glueType := by
  unfold entryName at h
  dsimp only at h
  cases hg : getDname (list.buf.drop 3) o 256 with
  | err => rw [hg] at h; cases h
  | ub => rw [hg] at h; cases h
  | ok nl =>
    rw [hg] at h
    dsimp only at h
    cases hl : lowerBytes nl.1 with
    | err => rw [hl] at h; cases h
    | ub => rw [hl] at h; cases h
    | ok n =>
      rw [hl, Res.ok_bind] at h
      revert h
      generalize (if cfg.glueType = 1 ∨ cfg.glueType = 28 ∨ cfg.glueType = 255 then cfg.glueType else 1) = type
      intro h
      cases hc : get c (n ++ be16 type) with
      | none =>
        rw [hc] at h
        cases h
        exact ⟨n, rfl⟩
      | some v =>
        rw [hc] at h
        dsimp only at h
        cases hf : fromAnswer (Remote.dstr v) r with
        | err => rw [hf] at h; cases h
        | ub => rw [hf] at h; cases h
        | ok a =>
          rw [hf, Res.ok_bind] at h
          cases a with
          | some a => cases h
          | none => cases h; exact ⟨n, rfl⟩

theorem entryAddr_name {list : DwStr} {o n : Nat} {q : List UInt8} : entryAddr list o n ≠ .ok (.name q) := by
  unfold entryAddr
  split <;> simp

theorem getAddr_name {cfg : Cfg} {c : List Entry} {list : DwStr} {r : List Nat × Nat} {cur cur' : Option Nat} {q : List UInt8}
    (h : getAddr cfg c list cur r = .ok (.name q, cur')) : ∃ n, q = n ++ be16 cfg.glueType := by
  unfold getAddr at h
  cases hg : Ns.nsGetip list cur r.1 with
  | err => rw [hg] at h; cases h
  | ub => rw [hg] at h; cases h
  | ok x =>
    obtain ⟨⟨i, o, ty⟩, cur2⟩ := x
    rw [hg] at h
    dsimp only at h
    split_ifs at h
    · cases hx : entryAddr list o 4 with
      | err => rw [hx] at h; cases h
      | ub => rw [hx] at h; cases h
      | ok f => rw [hx, Res.ok_bind] at h; cases h; exact absurd hx entryAddr_name
    · cases hx : entryAddr list o 16 with
      | err => rw [hx] at h; cases h
      | ub => rw [hx] at h; cases h
      | ok f => rw [hx, Res.ok_bind] at h; cases h; exact absurd hx entryAddr_name
    · cases hx : entryName cfg c list o r.2 with
      | err => rw [hx] at h; cases h
      | ub => rw [hx] at h; cases h
      | ok f => rw [hx, Res.ok_bind] at h; cases h; exact entryName_name hx
    · cases h

theorem findAddr_name {cfg : Cfg} {c : List Entry} {list : DwStr} : ∀ {ts : List (List Nat × Nat)} {cur cur' : Option Nat} {q : List UInt8},
    findAddr cfg c list ts cur = .ok (.name q, cur') → ∃ n, q = n ++ be16 cfg.glueType
  | [], cur, cur', q, h => by cases h
  | r :: rs, cur, cur', q, h => by
    unfold findAddr at h
    cases hg : getAddr cfg c list cur r with
    | err => rw [hg] at h; cases h
    | ub => rw [hg] at h; cases h
    | ok x =>
      obtain ⟨f, cur2⟩ := x
      rw [hg, Res.ok_bind] at h
      dsimp only at h
      split at h
      · exact findAddr_name h
      · cases h
        exact getAddr_name hg

/-! ### The packet -/

theorem rd_drop {a : List UInt8} {i : Nat} {x : UInt8} (h : rd a i = .ok x) : i < a.length := by
  unfold rd at h
  cases hg : a[i]? with
  | none => rw [hg] at h; cases h
  | some y => exact (List.getElem?_eq_some_iff.1 hg).1

theorem wr_drop {a a' : List UInt8} {i : Nat} {x : UInt8} (h : wr a i x = .ok a') (hi : i < 12) :
    a'.drop 12 = a.drop 12 ∧ a'.length = a.length := by
  unfold wr at h
  split at h
  · cases h
    exact ⟨by rw [List.drop_set_of_lt hi], by simp⟩
  · cases h

theorem cut_le (a : List UInt8) : ∀ (n z y x count k : Nat), Remote.cut a n z y x count = .ok (some k) → k ≤ count
  | 0, _, _, _, count, k, h => by
    unfold Remote.cut at h; cases h; exact Nat.le_refl _
  | n + 1, z, y, x, count, k, h => by
    unfold Remote.cut at h
    split at h
    swap
    · cases h; exact Nat.le_refl _
    cases hr : rd a z with
    | err => rw [hr] at h; cases h
    | ub => rw [hr] at h; cases h
    | ok c =>
      rw [hr, Res.ok_bind] at h
      repeat' split at h
      all_goals first
        | cases h
        | exact cut_le a n _ _ _ _ _ h
        | exact Nat.le_trans (cut_le a n _ _ _ _ _ h) (by omega)

theorem salvage_spec {a a' : List UInt8} {count k : Nat} {hack : Bool} (h : Remote.salvage a count hack = .ok (some (a', k))) :
    a'.drop 12 = a.drop 12 ∧ a'.length = a.length ∧ k ≤ count := by
  unfold Remote.salvage at h
  cases h1 : rd a 2 with
  | err => rw [h1] at h; cases h
  | ub => rw [h1] at h; cases h
  | ok f =>
  rw [h1, Res.ok_bind] at h
  cases h2 : rd a 7 with
  | err => rw [h2] at h; cases h
  | ub => rw [h2] at h; cases h
  | ok n =>
  rw [h2, Res.ok_bind] at h
  split at h
  swap
  · cases h; exact ⟨rfl, rfl, Nat.le_refl _⟩
  cases h3 : Remote.oneAnswer a with
  | err => rw [h3] at h; cases h
  | ub => rw [h3] at h; cases h
  | ok b =>
  rw [h3, Res.ok_bind] at h
  have hb : b.drop 12 = a.drop 12 ∧ b.length = a.length := by
    unfold Remote.oneAnswer at h3
    cases g1 : wr a 11 0 with
    | err => rw [g1] at h3; cases h3
    | ub => rw [g1] at h3; cases h3
    | ok b1 =>
    rw [g1, Res.ok_bind] at h3
    cases g2 : wr b1 10 0 with
    | err => rw [g2] at h3; cases h3
    | ub => rw [g2] at h3; cases h3
    | ok b2 =>
    rw [g2, Res.ok_bind] at h3
    cases g3 : wr b2 9 0 with
    | err => rw [g3] at h3; cases h3
    | ub => rw [g3] at h3; cases h3
    | ok b3 =>
    rw [g3, Res.ok_bind] at h3
    cases g4 : wr b3 8 0 with
    | err => rw [g4] at h3; cases h3
    | ub => rw [g4] at h3; cases h3
    | ok b4 =>
    rw [g4, Res.ok_bind] at h3
    cases g5 : wr b4 6 0 with
    | err => rw [g5] at h3; cases h3
    | ub => rw [g5] at h3; cases h3
    | ok b5 =>
    rw [g5, Res.ok_bind] at h3
    have e1 := wr_drop g1 (by omega)
    have e2 := wr_drop g2 (by omega)
    have e3 := wr_drop g3 (by omega)
    have e4 := wr_drop g4 (by omega)
    have e5 := wr_drop g5 (by omega)
    have e6 := wr_drop h3 (by omega)
    exact ⟨by rw [e6.1, e5.1, e4.1, e3.1, e2.1, e1.1], by rw [e6.2, e5.2, e4.2, e3.2, e2.2, e1.2]⟩
  cases h4 : Remote.cut b count 12 0 0 count with
  | err => rw [h4] at h; cases h
  | ub => rw [h4] at h; cases h
  | ok o =>
  rw [h4, Res.ok_bind] at h
  cases o with
  | none => cases h
  | some k' =>
    dsimp only at h
    cases h5 : rd b 2 with
    | err => rw [h5] at h; cases h
    | ub => rw [h5] at h; cases h
    | ok f' =>
    rw [h5, Res.ok_bind] at h
    cases h6 : wr b 2 (f' &&& 0xfd) with
    | err => rw [h6] at h; cases h
    | ub => rw [h6] at h; cases h
    | ok b' =>
    rw [h6, Res.ok_bind] at h
    cases h
    have e := wr_drop h6 (by omega)
    exact ⟨by rw [e.1, hb.1], by rw [e.2, hb.2], cut_le _ _ _ _ _ _ _ h4⟩

/-- The question in a packet, whatever its header is. -/
theorem question_at {p : Msg} (hp : p.Plain) {c : List UInt8} (hf : (p.header ++ p.question) <+: c) {packet spare : List UInt8}
    (hd : packet.drop 12 = (c ++ spare).drop 12) {len : Nat} (h1 : c.length ≤ len) (h2 : len ≤ packet.length) (hc : len < 65536) :
    Remote.question packet len = .ok (encName (lowered p.qname) ++ be16 p.qtype) := by
  obtain ⟨rest, hrest⟩ := hf
  have hh : p.header.length = 12 := by simp only [Msg.header, List.length_append, be16_length, hp.head]
  have hd : packet.drop 12 = encName p.qname ++ UInt8.ofNat (p.qtype / 256) :: UInt8.ofNat p.qtype ::
      (be16 p.qclass ++ rest ++ spare) := by
    rw [hd, ← hrest, List.append_assoc, List.append_assoc, List.drop_left' hh]
    simp [Msg.question, be16]
  have hlen : 12 + (encName p.qname).length + 4 ≤ c.length := by
    rw [← hrest]
    simp only [Msg.question, List.length_append, be16_length, hh]
    omega
  have hctl : NoCtl p.qname := fun l hl x hx => UInt8.le_iff_toNat_le.2 (hp.printable l hl x hx)
  have hq256 := hp.qname.2
  have hty : ¬ (UInt8.ofNat (p.qtype / 256) = 0xff ∧ 0x70 ≤ (UInt8.ofNat p.qtype).toNat ∧ (UInt8.ofNat p.qtype).toNat ≤ 0x7f) := by
    rintro ⟨h1, h2, h3⟩
    have h1 := congrArg UInt8.toNat h1
    simp only [UInt8.toNat_ofNat'] at h1 h2 h3
    have h1 : p.qtype / 256 % 256 = 255 := h1
    have := hp.qtype
    omega
  have hl : Remote.Legal p.qname (UInt8.ofNat (p.qtype / 256)) (UInt8.ofNat p.qtype) :=
    ⟨hp.qname.1, hctl, by omega, hty⟩
  refine Remote.question_of _ _ hl ?_
  have hat : Dw.NameAt packet 12 len p.qname := ⟨⟨_, hd⟩, hp.qname.1, hctl, by omega, by omega⟩
  rcases getDnameType_exact packet 12 len h2 (by omega) with ⟨ls, t0, t1, r2, g1, g2, g3, g4⟩ | ⟨-, g2⟩
  · rw [g4]
    have e : encName p.qname ++ UInt8.ofNat (p.qtype / 256) :: UInt8.ofNat p.qtype :: (be16 p.qclass ++ rest ++ spare) =
        encName ls ++ t0 :: t1 :: r2 := hd.symm.trans g2
    have e1 := SR.encName_inj hp.qname.1 g1.2.1 e
    rw [e1] at e
    have e := List.append_cancel_left e
    simp only [List.cons.injEq] at e
    rw [e1, ← e.1, ← e.2.1]
  · exact absurd ⟨_, _, _, _, hat, hd, hty⟩ g2

/-- A packet that passes the test asks the question of the request. -/
theorem verify_question {p : Remote.Pending} {packet : List UInt8} {len : Nat} (hl : len < 65536)
    (hlen : len ≤ packet.length) (h12 : 12 ≤ len)
    (h : Remote.verify p packet len = .ok true) : Remote.question packet len = .ok p.query := by
  unfold Remote.verify at h
  cases h1 : Hdr.getDnsQid packet len 0 with
  | err => rw [h1] at h; cases h
  | ub => rw [h1] at h; cases h
  | ok id =>
  rw [h1, Res.ok_bind] at h
  split at h
  · cases h
  cases h2 : Remote.question packet len with
  | err => rw [h2] at h; cases h
  | ub => rw [h2] at h; cases h
  | ok q =>
  rw [h2] at h
  dsimp only at h
  have hq : q.length < 134217727 := by
    rcases Remote.question_cases packet len h12 hlen (by omega) with ⟨x, -⟩ | ⟨-, ls, t0, t1, x1, -, x3⟩
    · rw [x] at h2; cases h2
    · rw [x3] at h2
      cases h2
      have := x1.len
      simp only [encName, List.length_append, Remote.encLabels_lower_length, List.length_cons, List.length_nil] at this ⊢
      omega
  cases h3 : DwStr.issame (Remote.dstr q) (Remote.dstr p.query) with
  | err => rw [h3] at h; cases h
  | ub => rw [h3] at h; cases h
  | ok s =>
  rw [h3, Res.ok_bind] at h
  cases h
  by_cases hpl : p.query.length < 134217727
  · have := issame_iff (Remote.dstr_usable hq) (Remote.dstr_usable hpl)
    rw [h3] at this
    have := (Res.ok.inj this).symm
    rw [Remote.dstr_contents, Remote.dstr_contents] at this
    rw [of_decide_eq_true this]
  · exfalso
    unfold DwStr.issame at h3
    split at h3
    · cases h3
    split at h3
    · cases h3
    rw [if_pos (by simp only [Remote.dstr, ne_eq]; omega)] at h3
    cases h3

theorem makeReply_key {cfg : Times} {query action answer : DwStr} {most : Int} {junk : List UInt8} {p : Put}
    (h : Alias.makeReply cfg query action answer most junk = .ok p) : p.key = query.contents := by
  unfold Alias.makeReply at h
  cases h1 : answer.fetchU16 (-6) with
  | err => rw [h1] at h; cases h
  | ub => rw [h1] at h; cases h
  | ok n =>
  rw [h1, Res.ok_bind] at h
  split at h
  · cases h
  cases h2 : Alias.doneTtl cfg answer n most with
  | err => rw [h2] at h; cases h
  | ub => rw [h2] at h; cases h
  | ok t =>
  rw [h2, Res.ok_bind] at h
  cases h3 : Alias.createReply query action answer t junk with
  | err => rw [h3] at h; cases h
  | ub => rw [h3] at h; cases h
  | ok u =>
  rw [h3, Res.ok_bind] at h
  cases h
  rfl

end Trust
end Dw
