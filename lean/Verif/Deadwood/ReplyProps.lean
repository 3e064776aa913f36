import Verif.Deadwood.ReplyLemmas
import Verif.Deadwood.DnsStr3Props
/-!
# C43 and C52: replies from the cache, and what clients get when the time is up
-/

namespace Dw
namespace Reply
open DwStr Spec

/-! ## C52: replies made from the cache -/

/-- The response code for the kind of answer: NXDOMAIN for 1, no error else. -/
def rcodeOf (kind : UInt8) : Fin 16 := if kind = 1 then 3 else 0

/-- **C52.**  A reply made from a (compressed) cache element has the client's ID and the
client's own question, QR, RD and RA set and no other flag, the response code for the kind
of answer, and the counts and records of the element.  If that would take 515 bytes or more
there is no reply.  The caller's copy of the element is left without its counts and kind. -/
theorem makePacket_exact {q v : DwStr} (hq : Usable q) (hv : Usable v) (id an ns ar : Fin 65536)
    {kind : UInt8} (hk : kind = 0 ∨ kind = 1 ∨ kind = 2) {body : List UInt8}
    (hc : v.contents = body ++ be16 an.val ++ be16 ns.val ++ be16 ar.val ++ [kind]) (junk : List UInt8) :
    ∃ p v', makePacket q v id.val junk = .ok (p, v') ∧ Usable v' ∧ v'.contents = body ∧
      p.map DwStr.contents =
        (if q.contents.length + body.length + 14 < 515 then
          some (reply id false (rcodeOf kind) an ns ar q.contents body) else none) := by
  obtain ⟨v1, e1, u1, c1⟩ := pop_byte hv hc
  obtain ⟨v2, e2, u2, c2⟩ := pop_word u1 c1
  obtain ⟨v3, e3, u3, c3⟩ := pop_word u2 c2
  obtain ⟨v4, e4, u4, c4⟩ := pop_word u3 c3
  have hk34 : ¬ ((kind.toNat : Int) = 3 ∨ (kind.toNat : Int) = 4) := by
    rcases hk with h | h | h <;> subst h <;> decide
  have hk012 : (kind.toNat : Int) = 0 ∨ (kind.toNat : Int) = 1 ∨ (kind.toNat : Int) = 2 := by
    rcases hk with h | h | h <;> subst h <;> decide
  obtain ⟨f, hf, hfl⟩ : ∃ f, (if (kind.toNat : Int) = 1 then 0x8183 else 0x8180) = f ∧
      [flags1 true 0 false false true, flags2 true false false false (rcodeOf kind)] = be16 f := by
    rcases hk with h | h | h <;> subst h
    · exact ⟨_, rfl, flags_8180⟩
    · exact ⟨_, rfl, flags_8183⟩
    · exact ⟨_, rfl, flags_8180⟩
  have hw := withQuestion_ok hq id.val f an.val ns.val ar.val junk
  have main : ∀ r, (withQuestion q id.val f an.val ns.val ar.val junk).bind
        (fun out => DwStr.append v4 out) = r →
      makePacket q v id.val junk = (match r with
        | .ok out => .ok (some out, v4)
        | .err => .ok (none, v4)
        | .ub => .ub) := by
    intro r hr
    subst hr
    simp only [makePacket, e1, e2, e3, e4, Res.ok_bind, if_neg hk34, if_pos hk012, hf]
    rfl
  by_cases hlen : q.contents.length + 14 < 515
  · obtain ⟨s, es, us, ms, cs⟩ := hw.2 hlen
    have hsl : s.contents.length = q.contents.length + 14 := by rw [cs]; simp [be16]
    have ha := append_exact u4 us
    rw [c4] at ha
    by_cases hb : q.contents.length + body.length + 14 < 515
    · obtain ⟨t, et, _, _, ct⟩ := ha.2 (by omega)
      refine ⟨some t, v4, ?_, u4, c4, ?_⟩
      · rw [main (.ok t) (by rw [es]; exact et)]
      · rw [if_pos hb, Option.map_some, ct, cs, reply, replyHeader_enc _ _ _ _ _ _ _ hfl]
    · refine ⟨none, v4, ?_, u4, c4, ?_⟩
      · rw [main .err (by rw [es]; exact ha.1 (by omega))]
      · rw [if_neg hb]; rfl
  · refine ⟨none, v4, ?_, u4, c4, ?_⟩
    · rw [main .err (by rw [hw.1 (by omega)]; rfl)]
    · rw [if_neg (by omega)]; rfl

/-- The bytes of a packet that was made. -/
def bytesOf : Res (Option DwStr × DwStr) → List UInt8
  | .ok (some p, _) => p.contents
  | _ => []

example : bytesOf (makePacket (ofBytes [1, 97, 0, 0, 1])
      (ofBytes [9, 9, 0, 1, 0, 0, 0, 0, 0]) 258 []) =
    [1, 2, 0x81, 0x80, 0, 1, 0, 1, 0, 0, 0, 0, 1, 97, 0, 0, 1, 0, 1, 9, 9] := by decide +kernel

/-- **C52**, truncated answers: the reply has TC set and no record. -/
theorem makePacket_truncated {q v : DwStr} (hq : Usable q) (hv : Usable v) (id : Fin 65536)
    (nx : Bool) {body : List UInt8} (hc : v.contents = body ++ [if nx then 4 else 3])
    (junk : List UInt8) :
    ∃ p v', makePacket q v id.val junk = .ok (p, v') ∧ v'.contents = body ∧
      p.map DwStr.contents =
        (if q.contents.length + 14 < 515 then
          some (reply id true (if nx then 3 else 0) 0 0 0 q.contents []) else none) := by
  obtain ⟨v1, e1, _, c1⟩ := pop_byte hv hc
  have hk34 : (((if nx then 4 else 3 : UInt8).toNat : Int) = 3 ∨
      ((if nx then 4 else 3 : UInt8).toNat : Int) = 4) := by cases nx <;> decide
  obtain ⟨f, hf, hfl⟩ : ∃ f, (if ((if nx then 4 else 3 : UInt8).toNat : Int) = 3 then 0x8380 else 0x8383) = f ∧
      [flags1 true 0 false true true, flags2 true false false false (if nx then 3 else 0)] = be16 f := by
    cases nx
    · exact ⟨_, rfl, flags_8380⟩
    · exact ⟨_, rfl, flags_8383⟩
  have hw := withQuestion_ok hq id.val f 0 0 0 junk
  by_cases hlen : q.contents.length + 14 < 515
  · obtain ⟨s, es, _, _, cs⟩ := hw.2 hlen
    refine ⟨some s, v1, ?_, c1, ?_⟩
    · simp only [makePacket, e1, Res.ok_bind, if_pos hk34, hf]
      rw [show withQuestion q id.val f 0 0 0 junk = .ok s from es]
    · rw [if_pos hlen, Option.map_some, cs, reply, replyHeader_enc _ _ _ _ _ _ _ hfl]
      simp
  · refine ⟨none, v1, ?_, c1, ?_⟩
    · simp only [makePacket, e1, Res.ok_bind, if_pos hk34, hf]
      rw [show withQuestion q id.val f 0 0 0 junk = .err from hw.1 (by omega)]
    · rw [if_neg hlen]; rfl

example : bytesOf (makePacket (ofBytes [1, 97, 0, 0, 1]) (ofBytes [3]) 258 []) =
    [1, 2, 0x83, 0x80, 0, 1, 0, 0, 0, 0, 0, 0, 1, 97, 0, 0, 1, 0, 1] := by decide +kernel

/-! ## C43: the time is up -/

/-- The SERVFAIL one client gets, if it is the `n`th (the order of arrival matters). -/
def failOf (listen : Bool) (q : List UInt8) (n : Nat) (c : Client) : List Out :=
  if c.inner then []
  else
    match c.tcp with
    | some t => if listen then [.tcp t (servfail (Fin.ofNat 65536 c.id) q)] else []
    | none => if n = 0 ∧ c.sock ∧ c.addr then [.udp 0 (servfail (Fin.ofNat 65536 c.id) q)] else []

theorem fin_ofNat {n : Nat} (h : n < 65536) : Fin.ofNat 65536 n = ⟨n, h⟩ := by
  apply Fin.ext; simp; omega

/-- Once the first client cannot be written to, only clients using TCP get something. -/
theorem failFrom_silent {q : DwStr} (hq : Usable q) (hl : q.contents.length + 14 < 515)
    (listen : Bool) (junk : List UInt8) {cs : List Client} (hid : ∀ c ∈ cs, c.id < 65536)
    (hs : ∀ b, forward b cs 0 = .ok ([], cs)) :
    ∀ (left n : Nat), n + 1 + left = cs.length →
      failFrom q true listen junk left (n + 1) cs =
        .ok ((cs.drop (n + 1)).flatMap (failOf listen q.contents 1), cs)
  | 0, n, h => by
    rw [List.drop_of_length_le (by omega)]; rfl
  | left + 1, n, h => by
    have hlt : n + 1 < cs.length := by omega
    have ih := failFrom_silent hq hl listen junk hid hs left (n + 1) (by omega)
    have hc := hid _ (List.getElem_mem hlt)
    obtain ⟨s, es, hcs⟩ := fail_packet hq hl hc junk
    have step : serverFail q listen junk cs (n + 1) =
        .ok (failOf listen q.contents 1 cs[n + 1], cs) := by
      simp only [serverFail, List.getElem?_eq_getElem hlt, failOf]
      by_cases hi : cs[n + 1].inner
      · simp [hi]
      · simp only [hi, es]
        cases ht : cs[n + 1].tcp with
        | none => simp [hs]
        | some t => simp [hcs, fin_ofNat hc]
    rw [List.drop_eq_getElem_cons hlt, List.flatMap_cons]
    simp only [failFrom, if_true, step, Res.ok_bind, ih]

/-- **C43**, what every client gets: a client using TCP gets SERVFAIL for the question with
its own ID (if Deadwood listens on TCP), whatever its place.  A client using UDP gets SERVFAIL
with its own ID only if it was the first to ask the question. -/
theorem timeout_exact {q : DwStr} (hq : Usable q) (hl : q.contents.length + 14 < 515)
    (listen : Bool) (junk : List UInt8) (c : Client) (cs : List Client)
    (hid : ∀ x ∈ c :: cs, x.id < 65536) (htcp : c.tcp ≠ none → c.addr = false) :
    expired q none true listen junk (c :: cs) =
      .ok (failOf listen q.contents 0 c ++ cs.flatMap (failOf listen q.contents 1)) := by
  obtain ⟨s, es, hcs⟩ := fail_packet hq hl (hid c (by simp)) junk
  obtain ⟨c', e', hsil, hid'⟩ : ∃ c', serverFail q listen junk (c :: cs) 0 =
      .ok (failOf listen q.contents 0 c, c' :: cs) ∧
      (∀ b, forward b (c' :: cs) 0 = .ok ([], c' :: cs)) ∧ c'.id = c.id := by
    simp only [serverFail, failOf, forward, List.getElem?_cons_zero]
    by_cases hi : c.inner
    · exact ⟨c, by simp [hi], by simp [hi], rfl⟩
    · cases ht : c.tcp with
      | some t =>
        have ha := htcp (by simp [ht])
        refine ⟨c, by simp [hi, es, hcs, fin_ofNat (hid c (by simp))], by simp [ha], rfl⟩
      | none =>
        by_cases hg : c.sock = true ∧ c.addr = true
        · refine ⟨{ c with sock := false }, ?_, by simp, rfl⟩
          simp [hi, es, hg.1, hg.2, hcs, fin_ofNat (hid c (by simp)), ht]
        · refine ⟨c, ?_, ?_, rfl⟩
          · have : ((!c.sock || c.inner || !c.addr) = true) := by
              cases hx : c.sock <;> cases hy : c.addr <;> simp_all
            simp only [hi, es]
            simp [hg]
          · have : ((!c.sock || c.inner || !c.addr) = true) := by
              cases hx : c.sock <;> cases hy : c.addr <;> simp_all
            simp [this]
  have hrest := failFrom_silent hq hl listen junk (cs := c' :: cs)
    (by intro x hx; rcases List.mem_cons.1 hx with h | h
        · subst h; rw [hid']; exact hid c (by simp)
        · exact hid x (by simp [h])) hsil cs.length 0 (by simp; omega)
  simp only [expired, Res.ok_bind, Bool.false_eq_true, if_false, List.length_cons, failFrom,
    if_true, e']
  rw [show 0 + 1 = 0 + 1 from rfl, hrest]
  simp

/-- **C43** for one client using UDP: it gets SERVFAIL with its own ID, once. -/
theorem timeout_single_partial {q : DwStr} (hq : Usable q) (hl : q.contents.length + 14 < 515)
    (listen : Bool) (junk : List UInt8) (id : Fin 65536) :
    expired q none true listen junk [⟨id.val, false, none, true, true⟩] =
      .ok [.udp 0 (servfail id q.contents)] := by
  rw [timeout_exact hq hl listen junk _ _ (by simp [id.isLt]) (by simp)]
  simp [failOf]

/-- **C43**, clients using TCP: each gets SERVFAIL with its own ID. -/
theorem timeout_tcp {q : DwStr} (hq : Usable q) (hl : q.contents.length + 14 < 515)
    (junk : List UInt8) {cs : List Client} (hid : ∀ x ∈ cs, x.id < 65536)
    (htcp : ∀ x ∈ cs, x.tcp ≠ none → x.addr = false) {x : Client} (hx : x ∈ cs)
    (hi : x.inner = false) {t : Nat} (ht : x.tcp = some t) :
    ∃ os, expired q none true true junk cs = .ok os ∧
      .tcp t (servfail (Fin.ofNat 65536 x.id) q.contents) ∈ os := by
  cases cs with
  | nil => simp at hx
  | cons c cs =>
    refine ⟨_, timeout_exact hq hl true junk c cs hid (htcp c (by simp)), ?_⟩
    rcases List.mem_cons.1 hx with h | h
    · subst h
      simp [failOf, hi, ht]
    · refine List.mem_append_right _ (List.mem_flatMap.2 ⟨x, h, ?_⟩)
      simp [failOf, hi, ht]

example : (Reply.expired (ofBytes [1, 97, 0, 0, 1]) none true true []
    [⟨1, false, none, true, true⟩, ⟨2, false, some 7, true, false⟩]) =
    .ok [.udp 0 [0, 1, 0x81, 0x82, 0, 1, 0, 0, 0, 0, 0, 0, 1, 97, 0, 0, 1, 0, 1],
      .tcp 7 [0, 2, 0x81, 0x82, 0, 1, 0, 0, 0, 0, 0, 0, 1, 97, 0, 0, 1, 0, 1]] := by decide +kernel

/-- The claim that every waiting client using UDP gets SERVFAIL is false: whoever asks a
question that is already on its way gets nothing when the time is up. -/
theorem timeout_others_silent {q : DwStr} (hq : Usable q) (hl : q.contents.length + 14 < 515)
    (listen : Bool) (junk : List UInt8) (c : Client) (cs : List Client)
    (hid : ∀ x ∈ c :: cs, x.id < 65536) (htcp : c.tcp ≠ none → c.addr = false) :
    ∃ os, expired q none true listen junk (c :: cs) = .ok os ∧
      ∀ n b, .udp n b ∈ os → n = 0 := by
  refine ⟨_, timeout_exact hq hl listen junk c cs hid htcp, fun n b h => ?_⟩
  rcases List.mem_append.1 h with h | h
  · simp only [failOf] at h
    split at h
    · simp at h
    · split at h
      · split at h <;> simp at h
      · split at h <;> simp_all
  · obtain ⟨x, _, hx⟩ := List.mem_flatMap.1 h
    simp only [failOf] at hx
    split at hx
    · simp at hx
    · split at hx
      · split at hx <;> simp at hx
      · simp at hx

example : (Reply.expired (ofBytes [1, 97, 0, 0, 1]) none true true []
    [⟨1, false, none, true, true⟩, ⟨2, false, none, true, true⟩]) =
    .ok [.udp 0 [0, 1, 0x81, 0x82, 0, 1, 0, 0, 0, 0, 0, 0, 1, 97, 0, 0, 1, 0, 1]] := by decide +kernel

/-- With an expired element in the cache a single client gets it, followed by the table of
offsets the cache keeps behind the records. -/
theorem resurrect_single {q v : DwStr} (hq : Usable q) (hv : Usable v) (id : Fin 65536)
    {p : Packed} (hk : p.kind = 0 ∨ p.kind = 1 ∨ p.kind = 2) (hc : v.contents = p.enc)
    (han : p.an.length < 65536) (hns : p.ns.length < 65536) (har : p.ar.length < 65536)
    (hl : q.contents.length + (p.all.flatMap RR.enc ++ (offsets 0 p.all).flatMap Packed.cell).length + 14 < 515)
    (noreply listen : Bool) (junk : List UInt8) :
    expired q (some v) noreply listen junk [⟨id.val, false, none, true, true⟩] =
      .ok [.udp 0 (reply id false (rcodeOf p.kind) ⟨_, han⟩ ⟨_, hns⟩ ⟨_, har⟩ q.contents
        (p.all.flatMap RR.enc ++ (offsets 0 p.all).flatMap Packed.cell))] := by
  obtain ⟨r, v', e, _, _, hr⟩ := makePacket_exact hq hv id ⟨_, han⟩ ⟨_, hns⟩ ⟨_, har⟩ hk hc junk
  rw [if_pos hl] at hr
  cases r with
  | none => simp at hr
  | some s =>
    simp only [Option.map_some, Option.some.injEq] at hr
    simp [expired, resurrectFrom, e, forward, hr]

example : Reply.expired (ofBytes [1, 97, 0, 0, 1])
    (some (ofBytes ([1, 97, 0, 0, 1, 0, 1, 0, 0, 0, 60, 0, 1, 10] ++ [0, 0, 0, 3] ++ [0, 1, 0, 0, 0, 0, 0])))
    true true [] [⟨5, false, none, true, true⟩] =
    .ok [.udp 0 ([0, 5, 0x81, 0x80, 0, 1, 0, 1, 0, 0, 0, 0, 1, 97, 0, 0, 1, 0, 1] ++
      [1, 97, 0, 0, 1, 0, 1, 0, 0, 0, 60, 0, 1, 10] ++ [0, 0, 0, 3])] := by decide +kernel

/-- With two clients the second gets nothing, not even SERVFAIL: the element was used up by
the first. -/
theorem resurrect_second_lost :
    ∃ q v cs, Usable q ∧ Usable v ∧ cs.length = 2 ∧ (∀ c ∈ cs, c = ⟨5, false, none, true, true⟩) ∧
      ∃ b, expired q (some v) true true [] cs = .ok [.udp 0 b] := by
  refine ⟨ofBytes [1, 97, 1, 98, 1, 99, 0, 0, 1],
    ofBytes ([1, 97, 1, 98, 1, 99, 0, 0, 1, 0, 1, 0, 0, 0, 60, 0, 4, 10, 9, 8, 7] ++
      [0, 0, 0, 7] ++ [0, 1, 0, 0, 0, 0, 0]),
    [⟨5, false, none, true, true⟩, ⟨5, false, none, true, true⟩], ?_, ?_, rfl, by simp, ?_⟩
  · exact ofBytes_usable (by simp)
  · exact ofBytes_usable (by simp)
  · exact ⟨[0, 5, 0x81, 0x80, 0, 1, 0, 1, 0, 0, 0, 0, 1, 97, 1, 98, 1, 99, 0, 0, 1, 0, 1,
      1, 97, 1, 98, 1, 99, 0, 0, 1, 0, 1, 0, 0, 0, 60, 0, 4, 10, 9, 8, 7, 0, 0, 0, 7],
      by decide +kernel⟩

end Reply
end Dw
