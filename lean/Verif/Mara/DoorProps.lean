import Verif.Mara.DoorModel
import Verif.Mara.AclProps
import Verif.Mara.DecompProps
import Verif.Mara.FetchNames
import Verif.Mara.ServeProps
import Verif.Mara.PlainVia
import Verif.Spec.Door
/-!
# C82: who gets what over TCP
-/

namespace Mara
namespace Door

open Dw (Res)
open Spec (Name Parcel Within encName dotted lowName LabelsOk be16 Legible memOf)
open Acl (free hits gettcp)
open Spec.Door (passedOn given)

/-! ## Rights -/

theorem hits_pos {ip : UInt32} {es : List Acl.Pair} : 0 < hits ip es ↔ ∃ e ∈ es, Within ip e := by
  rw [hits, List.length_pos_iff_exists_mem]
  simp [Within]

/-- The lists of clients are `a`, `b` and `c`. -/
structure Lists (cfg : Config) (a b c : List Acl.Pair) : Prop where
  transfer : ∃ i, cfg.transferAcl = a ++ List.replicate i free
  convert : ∃ i, cfg.convertAcl = b ++ List.replicate i free
  recursive : ∃ i, cfg.recursiveAcl = c ++ List.replicate i free
  used : ∀ e ∈ a ++ b ++ c, e.1 ≠ 0xffffffff
  short : a.length ≤ 500 ∧ b.length ≤ 500 ∧ c.length ≤ 500

theorem perms_eq {cfg : Config} {a b c : List Acl.Pair} (h : Lists cfg a b c) (ip : UInt32) :
    gettcp ip cfg.transferAcl cfg.convertAcl cfg.recursiveAcl =
      if ((if 0 < hits ip a then 1 else 0) + hits ip b * 2 + hits ip c * 4) &&& 3 = 0 then none
      else some ((if 0 < hits ip a then 1 else 0) + hits ip b * 2 + hits ip c * 4) := by
  obtain ⟨i, hi⟩ := h.transfer
  obtain ⟨j, hj⟩ := h.convert
  obtain ⟨k, hk⟩ := h.recursive
  have hu := h.used
  simp only [List.mem_append] at hu
  rw [hi, hj, hk, gettcp, Acl.permLoop_one 500 a i 0 (fun e he => hu e (Or.inl (Or.inl he))) h.short.1,
    Acl.permLoop_add 500 b j _ (fun e he => hu e (Or.inl (Or.inr he))) h.short.2.1,
    Acl.permLoop_add 500 c k _ (fun e he => hu e (Or.inr he)) h.short.2.2]
  simp only [hits_pos]

theorem and_one (n : Nat) : n &&& 1 = n % 2 := by
  rw [show (1 : Nat) = 2 ^ 1 - 1 from rfl, Nat.and_two_pow_sub_one_eq_mod]

theorem and_three (n : Nat) : n &&& 3 = n % 4 := by
  rw [show (3 : Nat) = 2 ^ 2 - 1 from rfl, Nat.and_two_pow_sub_one_eq_mod]

theorem and_two (n : Nat) : n &&& 2 = 2 ↔ n % 4 = 2 ∨ n % 4 = 3 := by
  have h : n &&& 2 = (n % 4) &&& 2 := by
    rw [← and_three, Nat.and_assoc]
    rfl
  rw [h]
  have : n % 4 < 4 := Nat.mod_lt _ (by decide)
  generalize n % 4 = m at *
  rcases m with _ | _ | _ | _ | m
  · decide
  · decide
  · decide
  · decide
  · omega

theorem and_four (n : Nat) : n &&& 4 = 4 ↔ 4 ≤ n % 8 := by
  have h : n &&& 4 = (n % 8) &&& 4 := by
    rw [show n % 8 = n &&& 7 by rw [show (7 : Nat) = 2 ^ 3 - 1 from rfl, Nat.and_two_pow_sub_one_eq_mod], Nat.and_assoc]
    rfl
  rw [h]
  have : n % 8 < 8 := Nat.mod_lt _ (by decide)
  generalize n % 8 = m at *
  have key : ∀ m : Fin 8, ((m : Nat) &&& 4 = 4 ↔ 4 ≤ (m : Nat)) := by decide
  exact key ⟨m, this⟩

theorem serveZone_forward {junk : UInt8} {perms : Nat} {input data : List UInt8} (h : serveZone junk perms input = .forward data) :
    perms &&& 2 = 2 := by
  have ho : ∀ {d}, orForward perms d = .forward data → perms &&& 2 = 2 := by
    intro d hd
    unfold orForward at hd
    split at hd
    · assumption
    · cases hd
  unfold serveZone at h
  dsimp only at h
  repeat' split at h
  all_goals first | cases h; done | exact ho h

theorem serveZone_transfer {junk : UInt8} {perms : Nat} {input z : List UInt8} {s : Bool} {hd : Reply.Hdr}
    (h : serveZone junk perms input = .transfer z s hd) : perms &&& 1 = 1 := by
  have ho : ∀ {d}, orForward perms d ≠ .transfer z s hd := by
    intro d
    unfold orForward
    split <;> simp
  by_contra hp
  unfold serveZone at h
  dsimp only at h
  repeat' split at h
  all_goals first | cases h; done | exact ho h | contradiction

/-- **C82.** Zones are sent to clients on the list for zone transfers only, whatever they send. -/
theorem transfer_admitted {cfg : Config} {a b c : List Acl.Pair} (h : Lists cfg a b c) {ip : UInt32} {input : List UInt8} {junk : UInt8}
    {sid : Nat} {other : List UInt8 → Option (List UInt8)} {d : Done} (hs : session cfg ip input junk sid other = .ok (some d))
    (ha : d.asked = none) (hsent : d.sent ≠ []) : ∃ e ∈ a, Within ip e := by
  unfold session at hs
  rw [perms_eq h] at hs
  by_cases hz : ((if 0 < hits ip a then 1 else 0) + hits ip b * 2 + hits ip c * 4) &&& 3 = 0
  · rw [if_pos hz] at hs
    cases hs
    exact absurd rfl hsent
  · rw [if_neg hz] at hs
    dsimp only at hs
    split at hs
    · cases hs
      exact absurd rfl hsent
    · split at hs
      · cases hs
        exact absurd rfl hsent
      · split at hs
        · cases hs
          exact absurd rfl hsent
        · cases hs
          cases ha
    · rename_i hst
      have := serveZone_transfer hst
      rw [and_one] at this
      rw [← hits_pos]
      split at this <;> omega

/-- **C82.** Questions are passed on for clients on the list for this only. -/
theorem forward_admitted {cfg : Config} {a b c : List Acl.Pair} (h : Lists cfg a b c) {ip : UInt32} {input : List UInt8} {junk : UInt8}
    {sid : Nat} {other : List UInt8 → Option (List UInt8)} {d : Done} (hs : session cfg ip input junk sid other = .ok (some d))
    (ha : d.asked ≠ none) : ∃ e ∈ b, Within ip e := by
  unfold session at hs
  rw [perms_eq h] at hs
  by_cases hz : ((if 0 < hits ip a then 1 else 0) + hits ip b * 2 + hits ip c * 4) &&& 3 = 0
  · rw [if_pos hz] at hs
    cases hs
    exact absurd rfl ha
  · rw [if_neg hz] at hs
    dsimp only at hs
    split at hs
    · cases hs
      exact absurd rfl ha
    · rename_i hst
      have := serveZone_forward hst
      rw [and_two] at this
      rw [← hits_pos]
      split at this <;> omega
    · split at hs
      · cases hs
        exact absurd rfl ha
      · split at hs
        · cases hs
        · cases hs
          exact absurd rfl ha
        · cases hs
        · cases hs

/-- **C82.** For everybody else, nothing happens. -/
theorem stranger_nothing {cfg : Config} {a b c : List Acl.Pair} (h : Lists cfg a b c) {ip : UInt32}
    (ha : ∀ e ∈ a, ¬ Within ip e) (hb : ∀ e ∈ b, ¬ Within ip e) (input : List UInt8) (junk : UInt8)
    (sid : Nat) (other : List UInt8 → Option (List UInt8)) : session cfg ip input junk sid other = .ok (some ⟨none, []⟩) := by
  have h1 : hits ip a = 0 := by
    by_contra hne
    obtain ⟨e, he, hw⟩ := hits_pos.mp (Nat.pos_of_ne_zero hne)
    exact ha e he hw
  have h2 : hits ip b = 0 := by
    by_contra hne
    obtain ⟨e, he, hw⟩ := hits_pos.mp (Nat.pos_of_ne_zero hne)
    exact hb e he hw
  unfold session
  rw [perms_eq h, if_pos (by rw [and_three, h1, h2, if_neg (by omega)]; omega)]

/-! ## Messages that are answers -/

theorem appendBytes_ext {c out o : List UInt8} {max off len : Nat} (h : Decomp.appendBytes c max out off len = .ok o) : out <+: o := by
  unfold Decomp.appendBytes at h
  split_ifs at h
  cases h
  exact List.prefix_append _ _

theorem appendName_ext {c out : List UInt8} {max off : Nat} {o : List UInt8 × Nat} (h : Decomp.appendName c max out off = .ok o) : out <+: o.1 := by
  unfold Decomp.appendName at h
  repeat' split at h
  all_goals first | cases h; done | skip
  cases h
  exact List.prefix_append _ _

theorem bind_ok_inv {α β : Type} {x : Res α} {f : α → Res β} {b : β} (h : (x >>= f) = .ok b) : ∃ a, x = .ok a ∧ f a = .ok b := by
  cases x with
  | ok a => exact ⟨a, rfl, h⟩
  | err => cases h
  | ub => cases h

theorem record_ext {c out : List UInt8} {um rm off : Nat} {o : List UInt8 × Nat} (h : Decomp.record c um rm out off = .ok o) : out <+: o.1 := by
  unfold Decomp.record at h
  obtain ⟨⟨o1, len⟩, h1, h⟩ := bind_ok_inv h
  dsimp only at h
  split at h
  · cases h
  obtain ⟨t, -, h⟩ := bind_ok_inv h
  obtain ⟨o2, h2, h⟩ := bind_ok_inv h
  obtain ⟨t', -, h⟩ := bind_ok_inv h
  obtain ⟨d, -, h⟩ := bind_ok_inv h
  split_ifs at h
  cases h
  refine (appendName_ext h1).trans ((appendBytes_ext h2).trans ?_)
  rw [List.append_assoc]
  exact List.prefix_append _ _

theorem records_ext {c : List UInt8} {um rm : Nat} : ∀ {n : Nat} {out o : List UInt8} {off : Nat}, Decomp.records c um rm n out off = .ok o → out <+: o
  | 0, _, _, _, h => by cases h; exact List.prefix_refl _
  | n + 1, _, _, _, h => by
    unfold Decomp.records at h
    obtain ⟨x, h1, h⟩ := bind_ok_inv h
    exact (record_ext h1).trans (records_ext h)

/-- The header stays as it is. -/
theorem decompress_head {c u : List UInt8} {um rm : Nat} (h : Decomp.decompress c um rm = .ok u) : c.take 12 <+: u ∧ 12 ≤ c.length := by
  unfold Decomp.decompress at h
  split at h
  · cases h
  rename_i hl
  obtain ⟨_, -, h⟩ := bind_ok_inv h
  obtain ⟨_, -, h⟩ := bind_ok_inv h
  obtain ⟨_, -, h⟩ := bind_ok_inv h
  obtain ⟨_, -, h⟩ := bind_ok_inv h
  split at h
  · cases h
  obtain ⟨o, ho, h⟩ := bind_ok_inv h
  have e : o = c.take 12 := by
    unfold Decomp.appendBytes at ho
    split_ifs at ho
    cases ho
    simp
  refine ⟨?_, by omega⟩
  rw [← e]
  split at h
  · exact records_ext h
  · obtain ⟨x, hx, h⟩ := bind_ok_inv h
    refine List.IsPrefix.trans ?_ (records_ext h)
    unfold Decomp.question at hx
    obtain ⟨⟨y, len⟩, hy, hx⟩ := bind_ok_inv hx
    dsimp only at hx
    split at hx
    · cases hx
    obtain ⟨z, hz, hx⟩ := bind_ok_inv hx
    cases hx
    exact (appendName_ext hy).trans (appendBytes_ext hz)

theorem qr_bit : ∀ n : Fin 256, 128 ≤ (n : Nat) → (UInt8.ofNat n &&& 128 != 0) = true := by decide +kernel

theorem readHdr_qr {l : List UInt8} {hd : Reply.Hdr} (h : Reply.readHdr l = some hd) : hd.qr = (l.getD 2 0 &&& 128 != 0) := by
  unfold Reply.readHdr at h
  split at h
  · cases h
    rfl
  · cases h

theorem readHdr_some {l : List UInt8} (h : 12 ≤ l.length) : ∃ hd, Reply.readHdr l = some hd := by
  rcases l with _ | ⟨_, _ | ⟨_, _ | ⟨_, _ | ⟨_, _ | ⟨_, _ | ⟨_, _ | ⟨_, _ | ⟨_, _ | ⟨_, _ | ⟨_, _ | ⟨_, _ | ⟨_, _⟩⟩⟩⟩⟩⟩⟩⟩⟩⟩⟩⟩
  all_goals first | exact ⟨_, rfl⟩ | (simp at h)

theorem readHdr_append {l hd} (h : Reply.readHdr l = some hd) (r : List UInt8) : Reply.readHdr (l ++ r) = some hd := by
  unfold Reply.readHdr at h
  split at h
  · rw [← h]
    rfl
  · cases h

theorem getD_prefix {a b : List UInt8} (h : a <+: b) {i : Nat} (hi : i < a.length) : b.getD i 0 = a.getD i 0 := by
  obtain ⟨t, rfl⟩ := h
  rw [List.getD_eq_getElem?_getD, List.getD_eq_getElem?_getD, List.getElem?_append_left hi]

/-- **C82.** Nothing happens for a message that says it is an answer, whoever sends it. -/
theorem answers_ignored (cfg : Config) (ip : UInt32) {m : List UInt8} (hm : 128 ≤ (m.getD 2 0).toNat) (hlen : m.length < 65536) (rest : List UInt8) (junk : UInt8)
    (sid : Nat) (other : List UInt8 → Option (List UInt8)) : session cfg ip (be16 m.length ++ m ++ rest) junk sid other = .ok (some ⟨none, []⟩) := by
  have hz : ∀ perms, serveZone junk perms (be16 m.length ++ m ++ rest) = .close := by
    intro perms
    unfold serveZone
    split
    · rfl
    · rename_i q hq
      have hqm : q = m := by
        have hn : (UInt8.ofNat (m.length / 256)).toNat * 256 + (UInt8.ofNat m.length).toNat = m.length := by
          simp only [UInt8.toNat_ofNat']
          omega
        unfold getQuery at hq
        simp only [be16, List.cons_append, List.nil_append] at hq
        rw [hn] at hq
        split_ifs at hq
        cases hq
        simp
      subst hqm
      split
      · rename_i data hd
        obtain ⟨⟨t, ht⟩, hl⟩ := decompress_head hd
        split
        · rfl
        · rename_i hdr hh
          have : hdr.qr = true := by
            have h2 : data.getD 2 0 = q.getD 2 0 := by
              rw [getD_prefix ⟨t, ht⟩ (by simp; omega)]
              simp
            rw [readHdr_qr hh, h2]
            have := qr_bit ⟨(q.getD 2 0).toNat, (q.getD 2 0).toNat_lt⟩ hm
            simpa using this
          rw [if_pos this]
      · rfl
  unfold session
  split
  · rfl
  · rw [hz]

/-! ## Questions -/

/-- A question as it arrives: one question and no answer bit, in at most 380 bytes. -/
structure Asks (input : List UInt8) (p : Parcel) (n : Name) (t : List UInt8) : Prop where
  ok : p.Ok
  question : ∃ cls, p.question = some (n, t ++ cls) ∧ t.length = 2 ∧ cls.length = 2
  notAnswer : (p.head.getD 2 0).toNat < 128
  labels : LabelsOk n
  short : (encName n).length ≤ 255
  size : p.bytes.length < 853
  input : ∃ q rest, p.Via (Legible (memOf q)) q ∧ q.length ≤ 380 ∧ input = be16 q.length ++ q ++ rest

theorem qr_clear : ∀ n : Fin 256, (n : Nat) < 128 → (UInt8.ofNat n &&& 128 != 0) = false := by decide +kernel

theorem getQuery_framed {q rest : List UInt8} (h : q.length ≤ 380) : getQuery (be16 q.length ++ q ++ rest) = some q := by
  have hn : (UInt8.ofNat (q.length / 256)).toNat * 256 + (UInt8.ofNat q.length).toNat = q.length := by
    simp only [UInt8.toNat_ofNat']
    omega
  unfold getQuery
  simp only [be16, List.cons_append, List.nil_append]
  rw [hn, if_neg (by omega), if_neg (by simp)]
  simp

theorem recs_small {p : Parcel} (h : p.bytes.length < 853) : ∀ r ∈ p.recs, r.rdata.length < 4512 := by
  intro r hr
  have h1 : r.toRR.enc.length ≤ ((p.recs.map Spec.Rec.toRR).flatMap Spec.RR.enc).length := by
    obtain ⟨a, b, e⟩ := List.append_of_mem hr
    rw [e, List.map_append, List.map_cons, List.flatMap_append, List.flatMap_cons]
    simp only [List.length_append]
    omega
  have h2 : r.rdata.length ≤ r.toRR.enc.length := by
    simp only [Spec.RR.enc, Spec.Rec.toRR, List.length_append]
    omega
  have h3 : ((p.recs.map Spec.Rec.toRR).flatMap Spec.RR.enc).length ≤ p.bytes.length := by
    simp only [Parcel.bytes, List.length_append]
    omega
  omega

theorem zoneName_run (junk : UInt8) {n : Name} (hl : LabelsOk n) (hs : (encName n).length ≤ 255) :
    zoneName junk (encName n) = some (if n = [] then [46] else dotted (lowName n)) := by
  have e : (encName n).map lowAscii = encName (lowName n) := Zf.encName_low hl
  have hlen : (encName (lowName n)).length = (encName n).length := by rw [← e, List.length_map]
  unfold zoneName
  rw [if_neg (by omega), e, Fetch.hname_run junk 65 (Lookup.lowName_ok hl) (by omega)]
  show some (if lowName n = [] then [46] else dotted (lowName n)) = _
  cases n with
  | nil => rfl
  | cons l n => rfl

/-- What `serve_zone` does with a question. -/
theorem serveZone_asks {input : List UInt8} {p : Parcel} {n : Name} {t : List UInt8} (h : Asks input p n t) (junk : UInt8) (perms : Nat) :
    ∃ hd, Reply.readHdr p.head = some hd ∧ serveZone junk perms input =
      if perms &&& 1 = 1 ∧ (t = [0, 6] ∨ t = [0, 251] ∨ t = [0, 252]) then .transfer (if n = [] then [46] else dotted (lowName n)) (t = [0, 6]) hd
      else if perms &&& 2 = 2 then .forward p.bytes else .close := by
  have hh := h.ok.head
  obtain ⟨hd, hhd⟩ := readHdr_some (l := p.head) (by omega)
  refine ⟨hd, hhd, ?_⟩
  obtain ⟨q, rest, hvia, hq, rfl⟩ := h.input
  obtain ⟨cls, hques, ht, hcls⟩ := h.question
  have hb : p.bytes = p.head ++ (encName n ++ (t ++ cls ++ (p.recs.map Spec.Rec.toRR).flatMap Spec.RR.enc)) := by
    unfold Parcel.bytes
    rw [hques]
    simp
  obtain ⟨t0, t1, rfl⟩ : ∃ t0 t1, t = [t0, t1] := by
    rcases t with _ | ⟨t0, _ | ⟨t1, _ | _⟩⟩ <;> simp at ht
    exact ⟨t0, t1, rfl⟩
  have hqr : hd.qr = false := by
    rw [readHdr_qr hhd]
    have := qr_clear ⟨(p.head.getD 2 0).toNat, (p.head.getD 2 0).toNat_lt⟩ h.notAnswer
    simpa using this
  have hdl : Lookup.dlabel p.bytes 12 256 0 = some (encName n).length := by
    rw [hb, Lookup.dlabel_name h.labels p.head _ 12 256 0 (by omega) ?_ (by have := h.short; omega), Nat.zero_add]
    have := Fetch.labels_lt n
    have := h.short
    omega
  unfold serveZone
  rw [getQuery_framed hq]
  dsimp only
  rw [Decomp.decompress_exact h.ok hvia h.size (recs_small h.size)]
  dsimp only
  have hhd' : Reply.readHdr p.bytes = some hd := by rw [hb]; exact readHdr_append hhd _
  rw [hhd']
  dsimp only
  rw [hqr, if_neg (by decide), hdl]
  dsimp only
  have hx : p.bytes = (p.head ++ encName n) ++ ([t0, t1] ++ (cls ++ (p.recs.map Spec.Rec.toRR).flatMap Spec.RR.enc)) := by rw [hb]; simp
  have g0 : p.bytes.getD (12 + (encName n).length) 0 = t0 := by
    rw [hx, List.getD_eq_getElem?_getD, List.getElem?_append_right (by simp; omega)]
    simp [hh]
  have g1 : p.bytes.getD (13 + (encName n).length) 0 = t1 := by
    rw [hx, List.getD_eq_getElem?_getD, List.getElem?_append_right (by simp; omega)]
    simp [hh, show 13 + (encName n).length - (12 + (encName n).length) = 1 by omega]
  have g2 : (p.bytes.drop 12).take (encName n).length = encName n := by
    rw [hb, List.drop_append_of_le_length (by omega), List.drop_of_length_le (by omega), List.nil_append, List.take_append_of_le_length (Nat.le_refl _),
      List.take_length]
  have g3 : ¬ p.bytes.length < 14 + (encName n).length := by
    rw [hx]
    simp
    omega
  rw [g0, g1, g2, if_neg g3, zoneName_run junk h.labels h.short]
  dsimp only
  by_cases h1 : perms &&& 1 = 1
  · rw [if_neg (by simpa using h1)]
    by_cases h0 : t0 = 0
    · subst h0
      rw [if_neg (by simp)]
      by_cases hty : t1 = 6 ∨ t1 = 251 ∨ t1 = 252
      · rw [if_pos hty, if_pos (show perms &&& 1 = 1 ∧ ([0, t1] = [0, 6] ∨ [0, t1] = [0, 251] ∨ [0, t1] = [0, 252]) from ⟨h1, by simpa using hty⟩)]
        simp
      · rw [if_neg hty, if_neg (fun hc => hty (by simpa using hc.2))]
        rfl
    · rw [if_pos h0, if_neg (fun hc => h0 (by rcases hc.2 with hc | hc | hc <;> (injection hc)))]
      rfl
  · rw [if_pos h1, if_neg (fun hc => h1 hc.1)]
    rfl

/-- **C82.** A question for a zone transfer, from a client on the list: the zone is sent as C81 says.  The zone is found
without regard to capitals. -/
theorem transfer_served {cfg : Config} {a b c : List Acl.Pair} (hl : Lists cfg a b c) {ip : UInt32} (ha : ∃ e ∈ a, Within ip e)
    {input : List UInt8} {p : Parcel} {n : Name} {t : List UInt8} (hask : Asks input p n t) (ht : t = [0, 251] ∨ t = [0, 252])
    {h : Spec.Host} {f : Spec.ZoneText.File} {zone : Name} (hn : lowName n = zone) (hcfg : cfg.zones (dotted zone) = some (Serve.env2 h zone, f.text))
    (hx : Csv2.ZoneText.Ok h cfg.mode (zone, f)) (hser : h.serial < 2 ^ 32) (hch : h.chosen.length ≤ 13)
    (hne : f.records h.serial zone ≠ []) (hs : ∀ e, (f.records h.serial zone).head? = some e → e.type = 6 → e.star = false)
    (hfit : ∀ c ∈ Spec.Serve.zoneSent h zone (f.records h.serial zone), Spec.Serve.Fits (Spec.Serve.soaOf h zone (f.records h.serial zone)) c)
    (junk : UInt8) (sid : Nat) (other : List UInt8 → Option (List UInt8)) :
    session cfg ip input junk sid other =
      .ok (some ⟨none, Spec.Serve.sending p.head (Spec.Serve.zoneSent h zone (f.records h.serial zone))⟩) := by
  have hpos := hits_pos.mpr ha
  unfold session
  rw [perms_eq hl, if_pos hpos, if_neg (by rw [and_three]; omega)]
  dsimp only
  obtain ⟨hd, hhd, hz⟩ := serveZone_asks hask junk (1 + hits ip b * 2 + hits ip c * 4)
  have hn0 : n ≠ [] := by
    rintro rfl
    exact hx.zone.notRoot hn.symm
  have h6 : (decide (t = [0, 6])) = false := by
    rcases ht with rfl | rfl <;> rfl
  rw [hz, if_pos ⟨by rw [and_one]; omega, Or.inr ht⟩, if_neg hn0, hn, h6]
  dsimp only
  rw [hcfg]
  dsimp only
  rw [Serve.serve_exact cfg.files hx hser hch hne hs hfit hhd]

/-- What was asked is passed on with the number `sid`; recursion is wanted if the client may have it. -/
theorem udpQuery_asks {input : List UInt8} {p : Parcel} {n : Name} {t : List UInt8} (h : Asks input p n t) {sid perms : Nat} (hsid : sid < 65536) :
    udpQuery sid perms p.bytes = some (passedOn sid (decide (perms &&& 4 = 4)) n t) := by
  have hh := h.ok.head
  obtain ⟨cls, hques, ht, hcls⟩ := h.question
  have hb : p.bytes = p.head ++ (encName n ++ (t ++ cls ++ (p.recs.map Spec.Rec.toRR).flatMap Spec.RR.enc)) := by
    unfold Parcel.bytes
    rw [hques]
    simp
  have hdl : Lookup.dlabel p.bytes 12 256 0 = some (encName n).length := by
    rw [hb, Lookup.dlabel_name h.labels p.head _ 12 256 0 (by omega) ?_ (by have := h.short; omega), Nat.zero_add]
    have := Fetch.labels_lt n
    have := h.short
    omega
  have hpos : 1 ≤ (encName n).length := Lookup.encName_pos n
  have hl : p.bytes.length = 12 + (encName n).length + (4 + ((p.recs.map Spec.Rec.toRR).flatMap Spec.RR.enc).length) := by
    rw [hb]
    simp only [List.length_append, hh, ht, hcls]
    omega
  have g : (p.bytes.drop 12).take ((encName n).length + 2) = encName n ++ t := by
    rw [hb, List.drop_append_of_le_length (by omega), List.drop_of_length_le (by omega), List.nil_append,
      show encName n ++ (t ++ cls ++ (p.recs.map Spec.Rec.toRR).flatMap Spec.RR.enc) = (encName n ++ t) ++ (cls ++ (p.recs.map Spec.Rec.toRR).flatMap Spec.RR.enc) by simp,
      List.take_append_of_le_length (by simp [ht]), List.take_of_length_le (by simp [ht])]
  have hm : ∀ x, (Reply.makeHdr x).length = 12 := fun _ => rfl
  unfold udpQuery
  rw [hdl]
  dsimp only
  rw [if_neg (by omega), if_neg (by omega), g, Serve.jsAppend_ok]
  · rw [Option.bind_some, Serve.add16_ok (by decide)]
    · unfold passedOn Reply.makeHdr
      cases decide (perms &&& 4 = 4) <;> simp [Reply.put16, be16]
    · simp only [List.length_append, hm, ht]
      have := h.short
      omega
  · simp only [List.length_append, hm, ht]
    have := h.short
    omega

theorem relay_some {sid : Nat} {data c : List UInt8} {r : Parcel} (hr : r.Ok) (hvia : r.Via (Legible (memOf c)) c) (hc : c.length ≤ 4100)
    (hsize : r.bytes.length < 12345) (hrec : ∀ x ∈ r.recs, x.rdata.length < 4512) (hd : 2 ≤ data.length) :
    relay sid data c = if Parcel.count r.head 0 = sid then some (given (data.take 2) r) else none := by
  have hh := hr.head
  unfold relay
  rw [List.take_of_length_le hc, Decomp.decompress_exact hr hvia hsize hrec]
  obtain ⟨x, y, rest, he⟩ : ∃ x y rest, r.head = x :: y :: rest := by
    rcases hx : r.head with _ | ⟨x, _ | ⟨y, l⟩⟩
    · rw [hx] at hh; cases hh
    · rw [hx] at hh; cases hh
    · exact ⟨x, y, l, rfl⟩
  have hb : r.bytes = x :: y :: r.bytes.drop 2 := by
    unfold Parcel.bytes
    rw [he]
    rfl
  have hcount : Parcel.count r.head 0 = x.toNat * 256 + y.toNat := by rw [he]; rfl
  obtain ⟨d0, d1, dr, rfl⟩ : ∃ d0 d1 dr, data = d0 :: d1 :: dr := by
    rcases data with _ | ⟨d0, _ | ⟨d1, dr⟩⟩
    · simp at hd
    · simp at hd
    · exact ⟨d0, d1, dr, rfl⟩
  rw [hb]
  dsimp only
  rw [hcount]
  by_cases hid : x.toNat * 256 + y.toNat = sid
  · rw [if_neg (by omega), if_pos hid]
    unfold given Spec.Door.framed Serve.framed
    simp [be16]
  · rw [if_pos hid, if_neg hid]

/-- **C82.** Any other question from a client on the list for this (and one entry of it only) is passed on: the same name and
type, another identification.  The client gets the reply of the other server, with the identification that it has chosen. -/
theorem forward_exact_partial {cfg : Config} {a b c : List Acl.Pair} (hl : Lists cfg a b c) {ip : UInt32} (hb : hits ip b = 1) (hc : hits ip c ≤ 1)
    {input : List UInt8} {p : Parcel} {n : Name} {t : List UInt8} (hask : Asks input p n t)
    (ht : (∀ e ∈ a, ¬ Within ip e) ∨ (t ≠ [0, 6] ∧ t ≠ [0, 251] ∧ t ≠ [0, 252])) (hserver : cfg.server ≠ 0 ∧ cfg.server ≠ 0xffffffff)
    (junk : UInt8) {sid : Nat} (hsid : sid < 65536) {other : List UInt8 → Option (List UInt8)} {reply : List UInt8}
    (hother : other (passedOn sid (decide (0 < hits ip c)) n t) = some reply)
    {r : Parcel} (hr : r.Ok) (hvia : r.Via (Legible (memOf reply)) reply) (hshort : reply.length ≤ 4100)
    (hsize : r.bytes.length < 12345) (hrec : ∀ x ∈ r.recs, x.rdata.length < 4512) :
    session cfg ip input junk sid other =
      .ok (some ⟨some (passedOn sid (decide (0 < hits ip c)) n t),
        if Parcel.count r.head 0 = sid then [given (p.head.take 2) r] else []⟩) := by
  unfold session
  rw [perms_eq hl]
  obtain ⟨k, hk, hk1, hk2, hk4⟩ : ∃ k, k = (if 0 < hits ip a then 1 else 0) + hits ip b * 2 + hits ip c * 4 ∧ (k &&& 1 = 1 ↔ 0 < hits ip a) ∧ k &&& 2 = 2 ∧
      (k &&& 4 = 4 ↔ 0 < hits ip c) := by
    refine ⟨_, rfl, ?_, ?_, ?_⟩
    · rw [and_one]; split <;> omega
    · rw [and_two]; split <;> omega
    · rw [and_four]; split <;> omega
  rw [← hk, if_neg (by rw [and_three]; rw [and_two] at hk2; omega)]
  dsimp only
  obtain ⟨hd, hhd, hz⟩ := serveZone_asks hask junk k
  rw [hz, if_neg, if_pos hk2]
  · dsimp only
    rw [if_neg (fun hx => hx.elim hserver.2 hserver.1), udpQuery_asks hask hsid, show decide (k &&& 4 = 4) = decide (0 < hits ip c) from decide_eq_decide.mpr hk4]
    dsimp only
    have h12 := hask.ok.head
    have hpl : 12 ≤ p.bytes.length := by
      unfold Parcel.bytes
      simp only [List.length_append]
      omega
    have htake : p.bytes.take 2 = p.head.take 2 := by
      unfold Parcel.bytes
      rw [List.append_assoc, List.take_append_of_le_length (by omega)]
    rw [hother, Option.bind_some, relay_some hr hvia hshort hsize hrec (by omega), htake]
    split <;> rfl
  · rintro ⟨h1, h2⟩
    rcases ht with ht | ht
    · obtain ⟨e, he, hw⟩ := hits_pos.mp (hk1.mp h1)
      exact ht e he hw
    · rcases h2 with h2 | h2 | h2
      · exact ht.1 h2
      · exact ht.2.1 h2
      · exact ht.2.2 h2

theorem relay_wrong {sid : Nat} {data reply : List UInt8} (h : Parcel.count reply 0 ≠ sid) : relay sid data reply = none := by
  unfold relay
  split
  · rename_i x y out hd
    obtain ⟨hp, hlen⟩ := decompress_head hd
    have h12 : 12 ≤ reply.length := by simp at hlen; omega
    have e : Parcel.count reply 0 = x.toNat * 256 + y.toNat := by
      have t2 : ((reply.take 4100).take 12) = reply.take 12 := by rw [List.take_take]; rfl
      rw [t2] at hp
      rcases reply with _ | ⟨u, _ | ⟨v, l⟩⟩
      · simp at h12
      · simp at h12
      · obtain ⟨z, hz⟩ := hp
        simp only [List.take_succ_cons, List.cons_append, List.cons.injEq] at hz
        rw [← hz.1, ← hz.2.1]
        rfl
    rw [if_pos (by rw [← e]; exact h)]
  · rfl

/-- **C82.** What does not have the identification of the question is not given to the client, whatever it is. -/
theorem wrong_id {cfg : Config} {ip : UInt32} {input : List UInt8} {junk : UInt8} {sid : Nat} {other : List UInt8 → Option (List UInt8)}
    (h : ∀ q r, other q = some r → Parcel.count r 0 ≠ sid) {d : Done} (hs : session cfg ip input junk sid other = .ok (some d))
    (ha : d.asked ≠ none) : d.sent = [] := by
  unfold session at hs
  repeat' split at hs
  all_goals first | (cases hs; done) | (cases hs; exact absurd rfl ha) | skip
  cases hs
  rename_i q _
  show ((other q).bind _).toList = []
  cases hq : other q with
  | none => rfl
  | some r =>
    rw [Option.bind_some, relay_wrong (h q r hq)]
    rfl

/-- **C82, finding.** What is in the file named by `random_seed_file` does not matter to the numbers of the questions: it is
read into an array that is gone when the numbers are made. -/
theorem seed_lost (cipher : List UInt8 → List UInt8 → List UInt8) (time file file' : List UInt8) (pid : UInt32) (frames : List (List UInt8)) (r : Rng) :
    srngs cipher time file pid frames r = srngs cipher time file' pid frames r := by
  induction frames generalizing r with
  | nil => rfl
  | cons stack more ih =>
    unfold srngs
    rw [show srng cipher time file pid stack r = srng cipher time file' pid stack r from rfl]
    split <;> simp [ih]

/-- With the same array in the call that makes the numbers, two servers with the same number and the same time have the same numbers. -/
example : srngs (fun k b => List.zipWith (· ^^^ ·) k b) (List.replicate 16 7) (List.range 16 |>.map (UInt8.ofNat ·)) 99 (List.replicate 3 (List.replicate 16 0)) ⟨0, [], []⟩ =
    some [0, 1799, 1799] := by decide +kernel

/-! ## Examples -/

open Csv2 (exFile exZone exHost exText_ok)
open Spec (ascii)

def exAcl : List Acl.Pair := [(0x0a000000, 0xff000000)]
def exAcl2 : List Acl.Pair := [(0x0a010000, 0xffff0000)]

theorem exZones : (if dotted exZone = ascii "example.com." then some (Serve.env2 exHost exZone, exFile.text) else none) = some (Serve.env2 exHost exZone, exFile.text) :=
  if_pos (by decide +kernel)

def exCfg : Config where
  transferAcl := exAcl ++ List.replicate 511 free
  convertAcl := exAcl2 ++ List.replicate 511 free
  recursiveAcl := [] ++ List.replicate 512 free
  zones n := if n = ascii "example.com." then some (Serve.env2 exHost exZone, exFile.text) else none
  files _ := none
  mode := 2
  server := 0x7f000001

theorem exLists : Lists exCfg exAcl exAcl2 [] := ⟨⟨_, rfl⟩, ⟨_, rfl⟩, ⟨_, rfl⟩, by decide, by decide⟩

def exHead : List UInt8 := [171, 205, 0, 0, 0, 1, 0, 0, 0, 0, 0, 0]

def exParcel (t : UInt8) : Parcel := ⟨exHead, some ([ascii "Example", ascii "COM"], [0, t, 0, 1]), []⟩

def exInput (t : UInt8) : List UInt8 := be16 (exParcel t).bytes.length ++ (exParcel t).bytes

theorem exParcel_ok {t : UInt8} : (exParcel t).Ok :=
  ⟨rfl, (show Parcel.count exHead 4 = 1 by decide +kernel), (by intro x hx; cases hx; rfl),
    (show 0 = Parcel.count exHead 6 + Parcel.count exHead 8 + Parcel.count exHead 10 by decide +kernel), (by intro r hr; cases hr), (by intro r hr; cases hr), (by intro r hr; cases hr)⟩

theorem exAsks {t : UInt8} : Asks (exInput t) (exParcel t) [ascii "Example", ascii "COM"] [0, t] where
  ok := exParcel_ok
  question := ⟨[0, 1], rfl, rfl, rfl⟩
  notAnswer := by show (0 : UInt8).toNat < 128; decide
  labels := by unfold LabelsOk; decide
  short := by decide
  size := by show 29 < 853; decide
  input := by
    refine ⟨_, [], PlainVia.plain_via exParcel_ok ?_ ?_, ?_, ?_⟩
    · intro x hx
      cases hx
      exact ⟨(show LabelsOk [ascii "Example", ascii "COM"] by unfold LabelsOk; decide), (show (encName [ascii "Example", ascii "COM"]).length ≤ 255 by decide)⟩
    · intro r hr
      cases hr
    · show 29 ≤ 380
      decide
    · rw [List.append_nil]
      rfl

-- 10.2.3.4 gets the zone
example (junk : UInt8) (sid : Nat) (other : List UInt8 → Option (List UInt8)) : session exCfg 0x0a020304 (exInput 252) junk sid other =
    .ok (some ⟨none, Spec.Serve.sending (exParcel 252).head (Spec.Serve.zoneSent exHost exZone (exFile.records 1 exZone))⟩) :=
  transfer_served (f := exFile) exLists ⟨_, List.mem_cons_self, (by unfold Within; decide)⟩ (exAsks (t := 252)) (Or.inr rfl) (h := exHost) (zone := exZone) (by decide +kernel)
    exZones (exText_ok _ List.mem_cons_self) (by decide) (by decide) (by decide) (by intro e he h6; cases he; cases h6)
    (by decide +kernel) junk sid other

example (junk : UInt8) (sid : Nat) (other : List UInt8 → Option (List UInt8)) (d : Done) (ip : UInt32)
    (h : session exCfg ip (exInput 252) junk sid other = .ok (some d)) (ha : d.asked = none) (hs : d.sent ≠ []) : ip &&& 0xff000000 = 0x0a000000 := by
  obtain ⟨e, he, hw⟩ := transfer_admitted exLists h ha hs
  obtain rfl : e = (0x0a000000, 0xff000000) := by simpa [exAcl] using he
  exact hw

example (junk : UInt8) (sid : Nat) (other : List UInt8 → Option (List UInt8)) (d : Done) (ip : UInt32)
    (h : session exCfg ip (exInput 1) junk sid other = .ok (some d)) (ha : d.asked ≠ none) : ip &&& 0xffff0000 = 0x0a010000 := by
  obtain ⟨e, he, hw⟩ := forward_admitted exLists h ha
  obtain rfl : e = (0x0a010000, 0xffff0000) := by simpa [exAcl2] using he
  exact hw

-- 10.1.2.3 asks for an address; the other server says that there is none
def exReply : Parcel := ⟨[4, 210, 129, 131, 0, 1, 0, 0, 0, 0, 0, 0], some ([ascii "Example", ascii "COM"], [0, 1, 0, 1]), []⟩

theorem exReply_ok : exReply.Ok := ⟨rfl, by decide +kernel, (by intro x hx; cases hx; rfl), by decide +kernel, (by intro r hr; cases hr), (by intro r hr; cases hr), (by intro r hr; cases hr)⟩

theorem exReply_via : exReply.Via (Legible (memOf exReply.bytes)) exReply.bytes :=
  PlainVia.plain_via exReply_ok
    (by intro x hx
        cases hx
        exact ⟨(show LabelsOk [ascii "Example", ascii "COM"] by unfold LabelsOk; decide), (show (encName [ascii "Example", ascii "COM"]).length ≤ 255 by decide)⟩)
    (by intro r hr; cases hr)

example (junk : UInt8) : session exCfg 0x0a010203 (exInput 1) junk 1234 (fun _ => some exReply.bytes) =
    .ok (some ⟨some (passedOn 1234 false [ascii "Example", ascii "COM"] [0, 1]), [[0, 29, 171, 205] ++ exReply.bytes.drop 2]⟩) := by
  have h := forward_exact_partial (ip := 0x0a010203) (sid := 1234) (reply := exReply.bytes) exLists (by decide) (by decide) (exAsks (t := 1)) (Or.inr (by decide))
    (by decide) junk (by decide) (other := fun _ => some exReply.bytes) rfl exReply_ok exReply_via (by decide) (by decide) (by intro r hr; cases hr)
  rw [if_pos (by decide +kernel)] at h
  rw [h, show decide (0 < hits 0x0a010203 ([] : List Acl.Pair)) = false by decide, show given ((exParcel 1).head.take 2) exReply = [0, 29, 171, 205] ++ exReply.bytes.drop 2 by decide +kernel]

-- with the wrong number, nothing
example (junk : UInt8) (d : Done) (h : session exCfg 0x0a010203 (exInput 1) junk 1235 (fun _ => some exReply.bytes) = .ok (some d)) (ha : d.asked ≠ none) : d.sent = [] :=
  wrong_id (by intro q r hr; cases hr; decide +kernel) h ha

-- 192.168.0.1 gets nothing
example (input : List UInt8) (junk : UInt8) (sid : Nat) (other : List UInt8 → Option (List UInt8)) :
    session exCfg 0xc0a80001 input junk sid other = .ok (some ⟨none, []⟩) :=
  stranger_nothing exLists (by unfold Within; decide) (by unfold Within; decide) input junk sid other

-- an answer is not answered
example (junk : UInt8) (sid : Nat) (other : List UInt8 → Option (List UInt8)) :
    session exCfg 0x0a010203 (be16 exReply.bytes.length ++ exReply.bytes ++ []) junk sid other = .ok (some ⟨none, []⟩) :=
  answers_ignored _ _ (by decide +kernel) (by decide) [] junk sid other

end Door
end Mara
