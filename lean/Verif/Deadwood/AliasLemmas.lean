import Verif.Spec.AliasChain
import Verif.Deadwood.AliasModel
import Verif.Deadwood.DissectFinish
/-!
# The answer for a name that is an alias: lemmas
-/

namespace Dw
namespace Alias
open DwStr Dissect Spec

/-! ### Names that can be read -/

theorem dnameLabel_in (raw : List UInt8) (max cap : Nat) (hcap : 260 ≤ cap) :
    ∀ (l : List UInt8) (offset : Nat) (acc rest : List UInt8), raw.drop (offset + 1) = l ++ rest →
    offset + l.length + 2 < max → acc.length + l.length ≤ 256 → (∀ x ∈ l, 32 ≤ x.toNat) →
    dnameLabel raw max cap l.length offset acc = .ok (offset + l.length, acc ++ l) := by
  intro l
  induction l with
  | nil => intro offset acc rest _ _ _ _; simp [dnameLabel]
  | cons x l ih =>
    intro offset acc rest h h1 h2 h3
    simp only [List.length_cons] at h1 h2
    simp only [List.length_cons, dnameLabel]
    rw [if_neg (by omega), if_neg (by omega)]
    have hx : raw[offset + 1]? = some x := by
      have := congrArg (·[0]?) h
      simpa using this
    have hp : rawPeek raw (offset + 1) = .ok x := by unfold rawPeek; rw [hx]
    rw [hp]
    simp only [Res.ok_bind]
    have h32 := h3 x (by simp)
    rw [if_neg (by rw [UInt8.lt_iff_toNat_lt]; show ¬ x.toNat < 32; omega)]
    have hr : raw.drop (offset + 1 + 1) = l ++ rest := by
      rw [← List.drop_drop, h]; rfl
    rw [ih (offset + 1) (acc ++ [x]) rest hr (by omega) (by simp; omega) (fun y hy => h3 y (by simp [hy]))]
    simp only [List.append_assoc, List.singleton_append]
    congr 2
    omega

theorem dnameLoop_in (raw : List UInt8) (max cap : Nat) (hcap : 260 ≤ cap) :
    ∀ (ls : List (List UInt8)) (n offset : Nat) (acc rest : List UInt8), ls.length < n → n ≤ 400 → LabelsOk ls →
    raw.drop offset = encName ls ++ rest → offset + (encName ls).length + 2 ≤ max → acc.length + (encName ls).length ≤ 255 →
    (∀ l ∈ ls, ∀ x ∈ l, 32 ≤ x.toNat) →
    dnameLoop raw max cap n offset acc = .ok (acc ++ encName ls, 400 - n + ls.length) := by
  intro ls
  induction ls with
  | nil =>
    intro n offset acc rest hn hn4 _ h h1 h2 _
    obtain ⟨n, rfl⟩ : ∃ k, n = k + 1 := ⟨n - 1, by simp at hn; omega⟩
    have he : (encName []).length = 1 := by simp [encName, encLabels]
    rw [he] at h1 h2
    simp only [dnameLoop]
    rw [if_neg (by omega), if_neg (by omega)]
    have hx : raw[offset]? = some 0 := by
      have := congrArg (·[0]?) h
      simpa [encName, encLabels] using this
    have hp : rawPeek raw offset = .ok 0 := by unfold rawPeek; rw [hx]
    rw [hp]
    simp [encName, encLabels]
  | cons l ls ih =>
    intro n offset acc rest hn hn4 hok h h1 h2 h3
    obtain ⟨n, rfl⟩ : ∃ k, n = k + 1 := ⟨n - 1, by simp at hn; omega⟩
    have hl := hok l (by simp)
    have he : encName (l :: ls) = UInt8.ofNat l.length :: (l ++ encName ls) := by simp [encName, encLabels]
    have hel : (encName (l :: ls)).length = 1 + l.length + (encName ls).length := by rw [he]; simp; omega
    have hpos : 0 < (encName ls).length := by simp [encName]
    simp only [dnameLoop]
    rw [if_neg (by omega), if_neg (by omega)]
    have hx : raw[offset]? = some (UInt8.ofNat l.length) := by
      have := congrArg (·[0]?) h
      simpa [he] using this
    have hp : rawPeek raw offset = .ok (UInt8.ofNat l.length) := by unfold rawPeek; rw [hx]
    have hto : (UInt8.ofNat l.length).toNat = l.length := by rw [ofNat8_toNat]; omega
    have hr : raw.drop (offset + 1) = l ++ (encName ls ++ rest) := by
      rw [← List.drop_drop, h, he]; simp
    rw [hp]
    simp only [Res.ok_bind]
    rw [if_neg (by rw [gt_iff_lt, UInt8.lt_iff_toNat_lt, hto]; show ¬ 63 < l.length; omega), if_neg (by
      intro hc
      have := congrArg UInt8.toNat hc
      rw [hto] at this
      have h0 : (0 : UInt8).toNat = 0 := rfl
      omega), hto]
    rw [dnameLabel_in raw max cap hcap l offset (acc ++ [UInt8.ofNat l.length]) _ hr (by omega) (by simp; omega)
      (h3 l (by simp))]
    simp only [Res.ok_bind]
    have hr2 : raw.drop (offset + l.length + 1) = encName ls ++ rest := by
      rw [show offset + l.length + 1 = (offset + 1) + l.length by omega, ← List.drop_drop, hr]; simp
    rw [ih n (offset + l.length + 1) (acc ++ [UInt8.ofNat l.length] ++ l) rest (by simpa using hn) (by omega)
      (fun x hx => hok x (by simp [hx])) hr2 (by omega) (by simp; omega) (fun x hx => h3 x (by simp [hx])), he]
    simp only [List.append_assoc, List.singleton_append, List.length_cons, List.cons_append, List.nil_append]
    congr 2
    omega


/-- A name without control characters is read if it and what is in front of it have fewer bytes than allowed. -/
theorem getDname_in {raw : List UInt8} {offset size : Nat} {ls : List (List UInt8)} (hok : Readable ls) {rest : List UInt8}
    (h : raw.drop offset = encName ls ++ rest) (hfar : offset + (encName ls).length + 2 ≤ size) (hs : size ≤ 1024) :
    getDname raw offset size = .ok (encName ls, ls.length) := by
  have := nameOk_length hok.1
  have := hok.1.2
  unfold getDname
  simp only [gt_iff_lt]
  have hcap : 260 ≤ (if 260 < size then size else 260) := by split <;> omega
  rw [if_neg (by split <;> omega)]
  rw [dnameLoop_in raw size _ hcap ls 400 offset [] rest (by omega) (by omega) hok.1.1 h hfar (by simp; omega) hok.2]
  simp

theorem nameOf_ok {size : Nat} (hs : size ≤ 1024) {name : List UInt8} (hn : name.length ≤ 255) (junk : List UInt8) :
    Usable (nameOf size name junk) ∧ (nameOf size name junk).contents = name ∧
      (nameOf size name junk).max = if size > 260 then size else 260 := by
  unfold nameOf
  simp only
  generalize hcap : (if size > 260 then size else 260) = cap
  have h1 : 260 ≤ cap := by rw [← hcap]; split <;> omega
  have h2 : cap ≤ 1024 := by rw [← hcap]; split <;> omega
  refine ⟨⟨?_, ?_, ?_⟩, ?_, trivial⟩
  · simp only [WF, List.length_take, List.length_append, List.length_replicate]; omega
  · simp only; omega
  · simp only; omega
  · unfold DwStr.contents
    simp only
    rw [List.take_take, Nat.min_eq_left (by omega), List.append_assoc, List.take_left]

/-- Numbers that are pushed. -/
theorem push_fits {s : DwStr} (h : Usable s) {n : Nat} {m : Nat} (hm : s.max = m) (hn : s.contents.length = n) (v : Nat)
    (hf : n + 2 < m) : ∃ s', pushU16 v s = .ok s' ∧ Usable s' ∧ s'.max = m ∧ s'.contents = s.contents ++ be16 v := by
  obtain ⟨s', h1, h2, h3, h4⟩ := (pushU16_exact v h).2 (by omega)
  exact ⟨s', h1, h2, h3.trans hm, h4⟩

theorem u16_low {ttl : Int} (h0 : 0 ≤ ttl) : u16 ttl = ttl.toNat % 65536 := by unfold u16; omega
theorem u16_high {ttl : Int} (h0 : 0 ≤ ttl) (h1 : ttl < 4294967296) : u16 (ttl / 65536) = ttl.toNat / 65536 := by
  unfold u16; omega

/-- One alias is made. -/
theorem oneCname_eq {question answer : DwStr} {qo ao size : Nat} {a b : List (List UInt8)} (ha : Readable a)
    (hb : Readable b) {ra rb : List UInt8} (h1 : question.buf.drop qo = encName a ++ ra)
    (h2 : answer.buf.drop ao = encName b ++ rb) (hqo : qo + (encName a).length + 2 ≤ size) (hs : size ≤ 1024)
    (hao : ao + (encName b).length ≤ 258) {ttl : Int} (h0 : 0 ≤ ttl) (h9 : ttl < 4294967296)
    (hfit : (encName a).length + 10 + (encName b).length < if size > 260 then size else 260) (junk : List UInt8) :
    ∃ o, oneCname question qo answer ao ttl size junk = .ok (o, (encName a).length) ∧ Usable o ∧
      o.max = (if size > 260 then size else 260) ∧ o.contents = (aliasRec ttl.toNat a b).toRR.enc := by
  generalize hcap : (if size > 260 then size else 260) = cap at hfit ⊢
  obtain ⟨n1, n2, n3⟩ := nameOf_ok hs ha.1.2 junk
  obtain ⟨m1, m2, -⟩ := nameOf_ok (size := 260) (by omega) hb.1.2 junk
  rw [hcap] at n3
  obtain ⟨c, c1, c2, c3, c4⟩ := copy_exact n1 junk
  rw [n3] at c3; rw [n2] at c4
  obtain ⟨o1, p1, u1, x1, e1⟩ := push_fits c2 c3 rfl 5 (by rw [c4]; omega)
  obtain ⟨o2, p2, u2, x2, e2⟩ := push_fits u1 x1 rfl 1 (by rw [e1, c4]; simp [be16_length]; omega)
  obtain ⟨o3, p3, u3, x3, e3⟩ := push_fits u2 x2 rfl (u16 (ttl / 65536)) (by rw [e2, e1, c4]; simp [be16_length]; omega)
  obtain ⟨o4, p4, u4, x4, e4⟩ := push_fits u3 x3 rfl (u16 ttl) (by rw [e3, e2, e1, c4]; simp [be16_length]; omega)
  obtain ⟨o5, p5, u5, x5, e5⟩ := push_fits u4 x4 rfl (encName b).length
    (by rw [e4, e3, e2, e1, c4]; simp [be16_length]; omega)
  obtain ⟨o6, p6, u6, x6, e6⟩ := (append_exact m1 u5).2
    (by rw [m2, e5, e4, e3, e2, e1, c4, x5]; simp [be16_length]; omega)
  refine ⟨o6, ?_, u6, x6.trans x5, ?_⟩
  · unfold oneCname
    rw [getDname_in ha h1 hqo hs]
    simp only [Res.ok_bind, c1, p1, p2, p3, p4]
    rw [getDname_in hb h2 (by omega) (by omega)]
    simp only [Res.ok_bind, p5, p6]
    rw [← c2.clen, c4]
  · rw [e6, e5, e4, e3, e2, e1, c4, m2, u16_low h0, u16_high h0 h9]
    simp [aliasRec, Rec.toRR, RR.enc, Rec.rdata, be32, be16]

/-! ### The aliases -/

/-- A name as it is written among the aliases. -/
def entry (n : List (List UInt8)) : List UInt8 := be16 (encName n).length ++ encName n

theorem entry_length (n : List (List UInt8)) : (entry n).length = 2 + (encName n).length := by simp [entry, be16_length]

theorem aliasRec_size (ttl : Nat) (a b : List (List UInt8)) :
    (aliasRec ttl a b).toRR.size = (encName a).length + 10 + (encName b).length := by
  simp [aliasRec, Rec.toRR, RR.size, Rec.rdata]

theorem rr_size_of {r : RR} (h : r.rdlen.length = 2) (hc : r.cls.length = 2) : r.enc.length = r.size := by
  simp [RR.enc, RR.size, h, hc, be32, be16_length]; omega

theorem aliasRec_enc (ttl : Nat) (a b : List (List UInt8)) :
    (aliasRec ttl a b).toRR.enc.length = (encName a).length + 10 + (encName b).length := by
  rw [rr_size_of (by simp [Rec.toRR, be16_length]) rfl, aliasRec_size]

theorem linkLoop_eq {action : DwStr} (hu : Usable action) {ttl : Int} (h0 : 0 ≤ ttl) (h9 : ttl < 4294967296) (final : Nat)
    (junk : List UInt8) : ∀ (bs : List (List (List UInt8))) (a : List (List UInt8)) (pre post : List UInt8) (n : Nat) (w : Work),
    action.contents = pre ++ (a :: bs).flatMap entry ++ post → (∀ x ∈ a :: bs, Readable x) →
    pre.length + ((a :: bs).flatMap entry).length ≤ 253 →
    final = pre.length + ((a :: bs).dropLast.flatMap entry).length →
    Usable w.value → w.value.max = 1024 → w.value.len ≤ 1020 →
    (w.value.len + sizes ((links ttl.toNat a (bs.take n)).map Rec.toRR) ≤ 1020 →
      ∃ v, linkLoop action ttl final junk n pre.length w = .ok ⟨v,
          w.offs ++ offsets w.value.len ((links ttl.toNat a (bs.take n)).map Rec.toRR),
          w.freed || !(bs.take n).isEmpty⟩ ∧
        Usable v ∧ v.max = 1024 ∧
        v.contents = w.value.contents ++ ((links ttl.toNat a (bs.take n)).map Rec.toRR).flatMap RR.enc) ∧
    (1020 < w.value.len + sizes ((links ttl.toNat a (bs.take n)).map Rec.toRR) →
      linkLoop action ttl final junk n pre.length w = .err)
  | bs, a, pre, post, 0, w, _, _, _, _, hw, hm, hl => by
    refine ⟨fun _ => ⟨w.value, ?_, hw, hm, by simp [links]⟩, fun h => ?_⟩
    · simp [linkLoop, links, offsets]
    · simp [links, sizes] at h; omega
  | [], a, pre, post, n + 1, w, _, _, _, hf, hw, hm, hl => by
    refine ⟨fun _ => ⟨w.value, ?_, hw, hm, by simp [links]⟩, fun h => ?_⟩
    · unfold linkLoop
      rw [if_pos (by simp [hf])]
      simp [links, offsets]
    · simp [links, sizes] at h; omega
  | b :: bs, a, pre, post, n + 1, w, hc, hr, hs, hf, hw, hm, hl => by
    have ha := hr a (by simp)
    have hb := hr b (by simp)
    have hpos : 0 < (encName a).length := by simp [encName]
    have hal := ha.1.2
    have hlen : ((a :: b :: bs).flatMap entry).length = 2 + (encName a).length + (2 + (encName b).length + (bs.flatMap entry).length) := by
      simp [entry_length]
    have hfl : final = pre.length + (2 + (encName a).length + ((b :: bs).dropLast.flatMap entry).length) := by
      rw [hf]; simp [entry_length]
    have f1 : action.fetchU16 (pre.length : Nat) = .ok (encName a).length :=
      fetch_be16 hu (pre := pre) (post := encName a ++ ((b :: bs).flatMap entry ++ post)) (by omega)
        (by rw [hc]; simp [entry]) rfl
    obtain ⟨ra, d1⟩ := buf_drop hu (pre := pre ++ be16 (encName a).length) (l := encName a)
      (post := (b :: bs).flatMap entry ++ post) (by rw [hc]; simp [entry])
    obtain ⟨rb, d2⟩ := buf_drop hu (pre := pre ++ be16 (encName a).length ++ encName a ++ be16 (encName b).length)
      (l := encName b) (post := bs.flatMap entry ++ post) (by rw [hc]; simp [entry])
    simp only [List.length_append, be16_length] at d1 d2
    obtain ⟨o, o1, o2, o3, o4⟩ := oneCname_eq (question := action) (answer := action) (qo := pre.length + 2)
      (ao := pre.length + (encName a).length + 4) (size := 260) ha hb d1
      (by rw [show pre.length + (encName a).length + 4 = pre.length + 2 + (encName a).length + 2 by omega]; exact d2)
      (by omega) (by omega) (by omega) h0 h9 (by simp; omega) junk
    have hol : o.contents.length = (encName a).length + 10 + (encName b).length := by rw [o4, aliasRec_enc]
    have hsz : sizes ((links ttl.toNat a ((b :: bs).take (n + 1))).map Rec.toRR) = o.contents.length +
        sizes ((links ttl.toNat b (bs.take n)).map Rec.toRR) := by
      simp only [List.take_succ_cons, links, List.map_cons, sizes_cons, aliasRec_size, hol]
    have hstep : linkLoop action ttl final junk (n + 1) pre.length w = (do
        let value ← append o w.value
        let w' : Work := ⟨value, w.offs ++ [(w.value.len % 65536, (w.value.len + (encName a).length) % 65536)], true⟩
        if value.len > 1020 then .err else linkLoop action ttl final junk n (pre.length + (encName a).length + 2) w') := by
      conv => lhs; unfold linkLoop
      rw [if_neg (by omega), f1]
      simp only
      rw [if_neg (by omega), o1]
      simp only [Res.ok_bind]
    rw [hstep]
    by_cases hroom : w.value.len + o.contents.length ≤ 1020
    · obtain ⟨v, v1, v2, v3, v4⟩ := (append_exact o2 hw).2 (by rw [hw.clen, hm]; omega)
      have vl : v.len = w.value.len + o.contents.length := by rw [← v2.clen, v4, List.length_append, hw.clen]
      rw [v1]
      simp only [Res.ok_bind]
      rw [if_neg (by omega)]
      have ih := linkLoop_eq hu h0 h9 final junk bs b (pre ++ entry a) post n
        ⟨v, w.offs ++ [(w.value.len % 65536, (w.value.len + (encName a).length) % 65536)], true⟩
        (by rw [hc]; simp) (fun x hx => hr x (by simp [hx])) (by
          rw [List.length_append, entry_length, List.flatMap_cons, List.length_append, entry_length]
          omega)
        (by rw [hfl, List.length_append, entry_length]; omega) v2 (v3.trans hm) (by simp only; omega)
      rw [List.length_append, entry_length, show pre.length + (2 + (encName a).length) = pre.length + (encName a).length + 2 by omega] at ih
      simp only at ih
      rw [hsz]
      rw [vl] at ih
      refine ⟨fun h => ?_, fun h => ih.2 (by omega)⟩
      obtain ⟨v', e1, e2, e3, e4⟩ := ih.1 (by omega)
      refine ⟨v', ?_, e2, e3, ?_⟩
      · rw [e1, Nat.mod_eq_of_lt (by omega), Nat.mod_eq_of_lt (by omega)]
        simp only [List.take_succ_cons, links, List.map_cons, offsets, aliasRec_size, ← hol]
        simp [aliasRec, Rec.toRR]
      · rw [e4, v4, o4]
        simp [links]
    · rw [hsz]
      refine ⟨fun h => by omega, fun _ => ?_⟩
      by_cases h : w.value.len + o.contents.length < 1024
      · obtain ⟨v, v1, v2, v3, v4⟩ := (append_exact o2 hw).2 (by rw [hw.clen, hm]; omega)
        have vl : v.len = w.value.len + o.contents.length := by rw [← v2.clen, v4, List.length_append, hw.clen]
        rw [v1]
        simp only [Res.ok_bind]
        rw [if_pos (by omega)]
      · rw [(append_exact o2 hw).1 (by rw [hw.clen, hm]; omega)]
        rfl

end Alias
end Dw
