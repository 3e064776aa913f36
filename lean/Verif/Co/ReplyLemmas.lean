import Verif.Co.ServerModel
import Verif.Co.NameLemmas
import Verif.Spec.Script
import Mathlib.Tactic.SplitIfs
/-!
# coLunacyDNS: lemmas on replies
-/

namespace Co
open Dw (Res)
open Spec (LabelsOk encName shown Header be16 be32 word)
open Spec.Script (Quest Body)

/-! ## Memory -/

theorem poke_at (a t : List UInt8) (x v : UInt8) (i : Nat) (h : i = a.length) : poke (a ++ x :: t) i v = .ok (a ++ v :: t) := by
  subst h
  unfold poke
  rw [if_pos (by simp)]
  simp

theorem pokes_at (new : List UInt8) : ∀ (a old t : List UInt8) (i : Nat), i = a.length → old.length = new.length →
    pokes (a ++ (old ++ t)) i new = .ok (a ++ (new ++ t)) := by
  induction new with
  | nil => intro a old t i hi hl; simp at hl; subst hl; rfl
  | cons b bs ih =>
    intro a old t i hi hl
    cases old with
    | nil => simp at hl
    | cons x old =>
      unfold pokes
      rw [List.cons_append, poke_at _ _ _ _ _ hi]
      simp only [Dw.Res.ok_bind]
      have := ih (a ++ [b]) old t (i + 1) (by simp [hi]) (by simpa using hl)
      simpa using this

theorem front_at (a t : List UInt8) (n : Nat) (h : n = a.length) : front (a ++ t) n = .ok a := by
  subst h; unfold front; rw [if_pos (by simp)]; simp

theorem ttl_bytes (n : Nat) (h : n < 16777216) : be32 n = [0, UInt8.ofNat (n / 65536), UInt8.ofNat (n / 256), UInt8.ofNat n] := by
  unfold be32 be16
  simp only [List.cons_append, List.nil_append, List.cons.injEq, and_true]
  refine ⟨?_, ?_, ?_, ?_⟩ <;> (try trivial) <;> (apply UInt8.toNat_inj.mp; simp; try omega)

theorem clampTtl_le (t : Option Int) : clampTtl t ≤ 7777777 := by
  cases t with
  | none => simp [clampTtl]
  | some t => simp only [clampTtl]; split_ifs <;> omega

/-- A record with place for a time to live. -/
theorem withRecord_at (a old t : List UInt8) (qLen ttl : Nat) (x : UInt8) (more : List UInt8) (ha : a.length = 17 + qLen)
    (ho : old.length = 10 + more.length) (ht : ttl < 16777216) :
    withRecord (a ++ (old ++ t)) qLen ([192, 12, 0, x, 0, 1, 0, 0, 0, 0] ++ more) ttl =
      .ok (a ++ ([192, 12, 0, x, 0, 1] ++ be32 ttl ++ more)) := by
  unfold withRecord
  rw [pokes_at _ a old t _ ha.symm (by simp; omega)]
  simp only [Dw.Res.ok_bind]
  have e1 := poke_at (a ++ [192, 12, 0, x, 0, 1, 0, 0, 0]) (more ++ t) 0 (UInt8.ofNat ttl) (qLen + 26) (by simp; omega)
  have e2 := poke_at (a ++ [192, 12, 0, x, 0, 1, 0, 0]) (UInt8.ofNat ttl :: (more ++ t)) 0 (UInt8.ofNat (ttl / 256)) (qLen + 25) (by simp; omega)
  have e3 := poke_at (a ++ [192, 12, 0, x, 0, 1, 0]) (UInt8.ofNat (ttl / 256) :: UInt8.ofNat ttl :: (more ++ t)) 0 (UInt8.ofNat (ttl / 65536))
    (qLen + 24) (by simp; omega)
  simp only [List.append_assoc, List.cons_append, List.nil_append] at e1 e2 e3 ⊢
  rw [e1]; simp only [Dw.Res.ok_bind]
  rw [e2]; simp only [Dw.Res.ok_bind]
  rw [e3]; simp only [Dw.Res.ok_bind]
  have := front_at (a ++ ([192, 12, 0, x, 0, 1] ++ be32 ttl ++ more)) t (17 + qLen + (more.length + 10)) (by simp [be32, be16]; omega)
  rw [ttl_bytes ttl ht] at this ⊢
  simpa using this

/-! ## Flags -/

theorem flags1_aa (qr : Bool) (op : Fin 16) (aa tc rd v : Bool) :
    ((Spec.flags1 qr op aa tc rd &&& 0xfb) ||| (if v then 4 else 0)) = Spec.flags1 qr op v tc rd := by
  revert qr op aa tc rd v; decide +kernel

theorem flags1_qr (qr : Bool) (op : Fin 16) (aa tc rd : Bool) : Spec.flags1 qr op aa tc rd ||| 0x80 = Spec.flags1 true op aa tc rd := by
  revert qr op aa tc rd; decide +kernel

theorem flags1_test (qr : Bool) (op : Fin 16) (aa tc rd : Bool) : Spec.flags1 qr op aa tc rd &&& 0x80 = if qr then 0x80 else 0 := by
  revert qr op aa tc rd; decide +kernel

theorem flags2_ra (ra z ad cd : Bool) (rc : Fin 16) (v : Bool) :
    ((Spec.flags2 ra z ad cd rc &&& 0x7f) ||| (if v then 0x80 else 0)) = Spec.flags2 v z ad cd rc := by
  revert ra z ad cd rc v; decide +kernel

theorem flags2_rc (ra z ad cd : Bool) (rc : Fin 16) : ((Spec.flags2 ra z ad cd rc &&& 0xf0) ||| 2) = Spec.flags2 ra z ad cd 2 := by
  revert ra z ad cd rc; decide +kernel

/-- A header in pieces. -/
theorem enc_eq (h : Header) : h.enc = UInt8.ofNat (h.id.val / 256) :: UInt8.ofNat h.id.val :: Spec.flags1 h.qr h.opcode h.aa h.tc h.rd ::
    Spec.flags2 h.ra h.z h.ad h.cd h.rcode :: (word h.qdcount ++ word h.ancount ++ word h.nscount ++ word h.arcount) := by
  simp [Header.enc, word]

theorem enc_len (h : Header) : h.enc.length = 12 := by simp [Header.enc, word]

theorem peek2 (h : Header) (t : List UInt8) : peek (h.enc ++ t) 2 = .ok (Spec.flags1 h.qr h.opcode h.aa h.tc h.rd) := by
  rw [enc_eq]; rfl

theorem peek3 (h : Header) (t : List UInt8) : peek (h.enc ++ t) 3 = .ok (Spec.flags2 h.ra h.z h.ad h.cd h.rcode) := by
  rw [enc_eq]; rfl

theorem poke2 (h : Header) (t : List UInt8) (v : UInt8) : poke (h.enc ++ t) 2 v = .ok (UInt8.ofNat (h.id.val / 256) :: UInt8.ofNat h.id.val :: v ::
    Spec.flags2 h.ra h.z h.ad h.cd h.rcode :: (word h.qdcount ++ word h.ancount ++ word h.nscount ++ word h.arcount ++ t)) := by
  rw [enc_eq, List.cons_append, List.cons_append, List.cons_append, List.cons_append]
  exact poke_at [_, _] _ _ v 2 rfl

theorem poke3 (h : Header) (t : List UInt8) (v : UInt8) : poke (h.enc ++ t) 3 v = .ok (UInt8.ofNat (h.id.val / 256) :: UInt8.ofNat h.id.val ::
    Spec.flags1 h.qr h.opcode h.aa h.tc h.rd :: v :: (word h.qdcount ++ word h.ancount ++ word h.nscount ++ word h.arcount ++ t)) := by
  rw [enc_eq, List.cons_append, List.cons_append, List.cons_append, List.cons_append]
  exact poke_at [_, _, _] _ _ v 3 rfl

theorem setBits_enc (r : Ret) (h : Header) (t : List UInt8) :
    setBits r (h.enc ++ t) = .ok ({ h with aa := decide (r.aa = some 1), ra := decide (r.ra = some 1) }.enc ++ t) := by
  unfold setBits
  rw [peek2]; simp only [Dw.Res.ok_bind]
  rw [poke2]; simp only [Dw.Res.ok_bind]
  have e := flags1_aa h.qr h.opcode h.aa h.tc h.rd (decide (r.aa = some 1))
  have e' := flags2_ra h.ra h.z h.ad h.cd h.rcode (decide (r.ra = some 1))
  simp only [decide_eq_true_eq] at e e'
  rw [e]
  have e2 : ({ h with aa := decide (r.aa = some 1) } : Header).enc ++ t = UInt8.ofNat (h.id.val / 256) :: UInt8.ofNat h.id.val ::
    Spec.flags1 h.qr h.opcode (decide (r.aa = some 1)) h.tc h.rd ::
    Spec.flags2 h.ra h.z h.ad h.cd h.rcode :: (word h.qdcount ++ word h.ancount ++ word h.nscount ++ word h.arcount ++ t) := by
    rw [enc_eq]; simp
  rw [← e2, peek3]; simp only [Dw.Res.ok_bind]
  rw [poke3, e', enc_eq]
  simp

/-- The header of a failure. -/
theorem fail_enc {α : Type} (k : List UInt8 → Res α) (h : Header) (t : List UInt8) (hn : h.ancount = 1) :
    (do
      let a ← peek (h.enc ++ t) 2
      let buf ← poke (h.enc ++ t) 2 (a ||| 0x80)
      let b ← peek buf 3
      let buf ← poke buf 3 ((b &&& 0xf0) ||| 2)
      let buf ← poke buf 7 0
      k buf) = k ({ h with qr := true, rcode := 2, ancount := 0 }.enc ++ t) := by
  rw [peek2]; simp only [Dw.Res.ok_bind]
  rw [poke2]; simp only [Dw.Res.ok_bind]
  rw [flags1_qr]
  have e2 : ({ h with qr := true } : Header).enc ++ t = UInt8.ofNat (h.id.val / 256) :: UInt8.ofNat h.id.val ::
    Spec.flags1 true h.opcode h.aa h.tc h.rd ::
    Spec.flags2 h.ra h.z h.ad h.cd h.rcode :: (word h.qdcount ++ word h.ancount ++ word h.nscount ++ word h.arcount ++ t) := by
    rw [enc_eq]; simp
  rw [← e2, peek3]; simp only [Dw.Res.ok_bind]
  rw [poke3]; simp only [Dw.Res.ok_bind]
  rw [flags2_rc, enc_eq, hn]
  simp only [show word 1 = [0, 1] from rfl, show word 0 = [0, 0] from rfl]
  simp only [word, List.cons_append, List.nil_append]
  have := poke_at [UInt8.ofNat (h.id.val / 256), UInt8.ofNat h.id.val, Spec.flags1 true h.opcode h.aa h.tc h.rd,
    Spec.flags2 h.ra h.z h.ad h.cd 2, UInt8.ofNat (h.qdcount.val / 256), UInt8.ofNat h.qdcount.val, 0]
    (UInt8.ofNat (h.nscount.val / 256) :: UInt8.ofNat h.nscount.val :: UInt8.ofNat (h.arcount.val / 256) :: UInt8.ofNat h.arcount.val :: t)
    1 0 7 rfl
  simp only [List.cons_append, List.nil_append] at this
  rw [this]; rfl

/-! ## What the script says -/

/-- What the table of the script stands for; `none` if nothing is to be sent. -/
def Ret.body (inet : List UInt8 → UInt32) (r : Ret) : Option Body :=
  if r.type = some (txt "serverFail") then some .fail
  else if r.type = some (txt "notThere") then some (.notThere (clampTtl r.ttl))
  else if r.type = some (txt "A") then
    r.data.bind fun d => if inet d = 0xffffffff then none else some (.a (bytes4 (inet d)) (clampTtl r.ttl))
  else if r.type = some (txt "ip6") then r.data.bind fun d => (ip6Parse d).map fun ip => .aaaa ip (clampTtl r.ttl)
  else none

/-- What is sent: the reply, and for some a byte too many. -/
def sent (b : Body) (q : Quest) (aa ra : Bool) : List UInt8 := b.reply q aa ra ++ if b.Special then [0] else []

/-- The buffer of a question that is worked on. -/
structure Prepared (q : Quest) (buf : List UInt8) (qLen : Nat) : Prop where
  len : qLen + 1 = (encName q.name).length
  bytes : ∃ t, buf = { q.header with qr := true, ancount := 1, arcount := 0 }.enc ++ (q.question ++ t) ∧ 41 ≤ t.length

theorem ip6Parse_len (d ip : List UInt8) (h : ip6Parse d = some ip) : ip.length = 16 := by
  have p2 : ∀ (seen : Seen) (cs : List UInt8) (i : Nat) (s r : Acc), pass2 seen cs i s = some r → r.ip.length = s.ip.length := by
    intro seen cs
    induction cs with
    | nil => intro i s r h; simp [pass2] at h; rw [h]
    | cons c cs ih =>
      intro i s r h
      unfold pass2 at h
      have key (s1 : Acc) (e1 : s1.ip = s.ip) (h : ((endGroup (digit seen.colons c).isSome cs.isEmpty s1).bind fun s2 =>
          pass2 seen cs (i + 1) s2) = some r) : r.ip.length = s.ip.length := by
        rw [Option.bind_eq_some_iff] at h
        obtain ⟨s2, h2, h3⟩ := h
        rw [ih _ _ _ h3]
        unfold endGroup at h2
        split_ifs at h2 <;> simp at h2 <;> rw [← h2] <;> simp [e1]
      simp only [Option.bind_eq_bind] at h
      split at h
      · rw [Option.bind_eq_some_iff] at h
        obtain ⟨s1, h1, h⟩ := h
        refine key s1 ?_ h
        unfold takeDigit at h1
        split_ifs at h1
        simp at h1; rw [← h1]
      · split_ifs at h
        · rw [Option.bind_eq_some_iff] at h
          obtain ⟨s1, h1, h⟩ := h
          refine key s1 ?_ h
          unfold takeColon at h1
          split_ifs at h1 <;> simp at h1 <;> rw [← h1]
        · exact key s rfl h
        · cases h
  unfold ip6Parse at h
  split at h
  · cases h
  · split_ifs at h
    split at h
    · cases h
    · rename_i hr
      split_ifs at h
      simp at h
      rw [← h, p2 _ _ _ _ _ hr]; simp

theorem endThread_body (inet : List UInt8 → UInt32) (q : Quest) (buf : List UInt8) (qLen : Nat) (hp : Prepared q buf qLen) (r : Ret) :
    endThread inet buf qLen (some r) =
      .ok ((r.body inet).map fun b => sent b q (decide (r.aa = some 1)) (decide (r.ra = some 1))) := by
  obtain ⟨hl, t, rfl, ht⟩ := hp
  have hq : q.question.length = qLen + 5 := by
    unfold Quest.question; simp [be16]; omega
  have hc := clampTtl_le r.ttl
  unfold endThread Ret.body
  simp only
  rw [setBits_enc]; simp only [Dw.Res.ok_bind]
  have rc (x : UInt8) (more : List UInt8) (hm : 10 + more.length ≤ 41) :=
    withRecord_at ({ q.header with qr := true, ancount := 1, arcount := 0, aa := decide (r.aa = some 1), ra := decide (r.ra = some 1) }.enc ++ q.question)
      (t.take (10 + more.length)) (t.drop (10 + more.length)) qLen (clampTtl r.ttl) x more (by simp [enc_len, hq]; omega)
      (by simp; omega) (by omega)
  simp only [List.take_append_drop] at rc
  split_ifs with h1 h2 h3 h4
  · have e := fail_enc (fun buf => (front buf (17 + qLen)).bind fun out => .ok (some out)) { q.header with qr := true, ancount := 1, arcount := 0, aa := decide (r.aa = some 1), ra := decide (r.ra = some 1) }
      (q.question ++ t) rfl
    refine e.trans ?_
    rw [← List.append_assoc, front_at _ t (17 + qLen) (by simp [enc_len, hq]; omega)]
    simp [sent, Body.Special, Body.reply, Body.record, Body.header, Res.bind]
  · have := rc 6 (notThere.drop 10) (by decide)
    rw [List.append_assoc] at this
    have e : [192, 12, 0, 6, 0, 1, 0, 0, 0, 0] ++ notThere.drop 10 = notThere := by decide
    rw [e] at this
    rw [this]; simp only [Dw.Res.ok_bind]
    simp [sent, Body.Special, Body.reply, Body.record, Body.header, notThere, be16, be32]
  · cases r.data with
    | none => rfl
    | some d =>
      simp only [Option.bind_some]
      have := rc 1 (0 :: 4 :: bytes4 (inet d)) (by simp [bytes4])
      rw [List.append_assoc] at this
      have e : [192, 12, 0, 1, 0, 1, 0, 0, 0, 0] ++ (0 :: 4 :: bytes4 (inet d)) = v4Answer (bytes4 (inet d)) := rfl
      rw [e] at this
      rw [this]; simp only [Dw.Res.ok_bind]
      split_ifs with h5
      · rfl
      · simp [sent, Body.Special, Body.reply, Body.record, Body.header, be16]
  · cases r.data with
    | none => rfl
    | some d =>
      simp only [Option.bind_some]
      cases hi : ip6Parse d with
      | none => rfl
      | some ip =>
        simp only [Option.map_some]
        have := rc 28 (0 :: 16 :: ip) (by simp [ip6Parse_len d ip hi])
        rw [List.append_assoc] at this
        have e : [192, 12, 0, 28, 0, 1, 0, 0, 0, 0] ++ (0 :: 16 :: ip) = v6Answer ip := rfl
        rw [e] at this
        rw [this]; simp only [Dw.Res.ok_bind]
        simp [sent, Body.Special, Body.reply, Body.record, Body.header, be16]
  · rfl

/-! ## Questions -/

theorem fill_at (n : Nat) (bytes junk : List UInt8) (h : bytes.length ≤ n) : ∃ t, fill n bytes junk = bytes ++ t ∧ t.length = n - bytes.length := by
  refine ⟨(junk ++ List.replicate n 0).take (n - bytes.length), ?_, ?_⟩
  · unfold fill
    rw [List.take_of_length_le h, List.append_assoc, List.take_append]
    simp [List.take_of_length_le h]
  · simp; omega

theorem byte_one (n : Fin 65536) (h : n = 1) : word n = [0, 1] := by subst h; rfl

theorem prepare_enc (h : Header) (n : Nat) (hn : 12 < n) (t : List UInt8) (h1 : h.qdcount = 1) (ha : h.ancount = 0) (hr : h.arcount.val < 256) :
    prepare n (h.enc ++ t) = .ok ({ h with qr := true, ancount := 1, arcount := 0 }.enc ++ t) := by
  unfold prepare
  have e0 : h.enc ++ t = UInt8.ofNat (h.id.val / 256) :: UInt8.ofNat h.id.val :: Spec.flags1 h.qr h.opcode h.aa h.tc h.rd ::
      Spec.flags2 h.ra h.z h.ad h.cd h.rcode :: 0 :: 1 :: 0 :: 0 :: UInt8.ofNat (h.nscount.val / 256) :: UInt8.ofNat h.nscount.val ::
      0 :: UInt8.ofNat h.arcount.val :: t := by
    rw [enc_eq, h1, ha]
    simp only [word, List.cons_append, List.nil_append]
    rw [show h.arcount.val / 256 = 0 by omega]
    rfl
  rw [if_neg (by omega), e0]
  have p5 : peek (UInt8.ofNat (h.id.val / 256) :: UInt8.ofNat h.id.val :: Spec.flags1 h.qr h.opcode h.aa h.tc h.rd ::
      Spec.flags2 h.ra h.z h.ad h.cd h.rcode :: 0 :: 1 :: 0 :: 0 :: UInt8.ofNat (h.nscount.val / 256) :: UInt8.ofNat h.nscount.val ::
      0 :: UInt8.ofNat h.arcount.val :: t) 5 = .ok 1 := rfl
  rw [p5]; simp only [Dw.Res.ok_bind, ne_eq, not_true_eq_false, if_false]
  have p2 : peek (UInt8.ofNat (h.id.val / 256) :: UInt8.ofNat h.id.val :: Spec.flags1 h.qr h.opcode h.aa h.tc h.rd ::
      Spec.flags2 h.ra h.z h.ad h.cd h.rcode :: 0 :: 1 :: 0 :: 0 :: UInt8.ofNat (h.nscount.val / 256) :: UInt8.ofNat h.nscount.val ::
      0 :: UInt8.ofNat h.arcount.val :: t) 2 = .ok (Spec.flags1 h.qr h.opcode h.aa h.tc h.rd) := rfl
  rw [p2]; simp only [Dw.Res.ok_bind]
  have k2 := poke_at [UInt8.ofNat (h.id.val / 256), UInt8.ofNat h.id.val] (Spec.flags2 h.ra h.z h.ad h.cd h.rcode :: 0 :: 1 :: 0 :: 0 ::
    UInt8.ofNat (h.nscount.val / 256) :: UInt8.ofNat h.nscount.val :: 0 :: UInt8.ofNat h.arcount.val :: t)
    (Spec.flags1 h.qr h.opcode h.aa h.tc h.rd) (Spec.flags1 h.qr h.opcode h.aa h.tc h.rd ||| 0x80) 2 rfl
  simp only [List.cons_append, List.nil_append] at k2
  rw [k2, flags1_qr]; simp only [Dw.Res.ok_bind]
  have p7 : peek (UInt8.ofNat (h.id.val / 256) :: UInt8.ofNat h.id.val :: Spec.flags1 true h.opcode h.aa h.tc h.rd ::
      Spec.flags2 h.ra h.z h.ad h.cd h.rcode :: 0 :: 1 :: 0 :: 0 :: UInt8.ofNat (h.nscount.val / 256) :: UInt8.ofNat h.nscount.val ::
      0 :: UInt8.ofNat h.arcount.val :: t) 7 = .ok 0 := rfl
  rw [p7]; simp only [Dw.Res.ok_bind]
  have k7 := poke_at [UInt8.ofNat (h.id.val / 256), UInt8.ofNat h.id.val, Spec.flags1 true h.opcode h.aa h.tc h.rd,
    Spec.flags2 h.ra h.z h.ad h.cd h.rcode, 0, 1, 0] (UInt8.ofNat (h.nscount.val / 256) :: UInt8.ofNat h.nscount.val :: 0 ::
    UInt8.ofNat h.arcount.val :: t) 0 (0 + 1) 7 rfl
  simp only [List.cons_append, List.nil_append] at k7
  rw [k7]; simp only [Dw.Res.ok_bind]
  have k11 := poke_at [UInt8.ofNat (h.id.val / 256), UInt8.ofNat h.id.val, Spec.flags1 true h.opcode h.aa h.tc h.rd,
    Spec.flags2 h.ra h.z h.ad h.cd h.rcode, 0, 1, 0, 0 + 1, UInt8.ofNat (h.nscount.val / 256), UInt8.ofNat h.nscount.val, 0] t
    (UInt8.ofNat h.arcount.val) 0 11 rfl
  simp only [List.cons_append, List.nil_append] at k11
  rw [k11, enc_eq, h1]
  simp only [show word 1 = [0, 1] from rfl, show word 0 = [0, 0] from rfl]
  simp [word]

theorem peek_drop {buf r : List UInt8} {n : Nat} {a : UInt8} (h : buf.drop n = a :: r) : peek buf n = .ok a := by
  unfold peek; rw [(drop_get h).1]

/-- What a client is for the script. -/
def Client.query (c : Client) (q : Quest) : Query :=
  ⟨shown q.name, q.qtype, if c.ip.length ≠ 4 then ip6Show c.ip else ip4Show c.ip, c.ip.length ≠ 4⟩

/-- What happens with a question. -/
theorem question_ok {L : Script} (inet : List UInt8 → UInt32) (s : Server L) (c : Client) (q : Quest) (hq : q.Ok) (junk : List UInt8) (luck : Luck) :
    ∃ buf qLen, Prepared q buf qLen ∧ question inet s c q.bytes junk luck =
      if q.qtype = 255 ∨ q.qtype = 13 then
        .ok (s, if c.ip.length = 4 then [.reply c (sent .any q q.header.aa q.header.ra)] else [])
      else drive inet { s with lua := (L.start s.lua (c.query q)).1 } c buf qLen (L.start s.lua (c.query q)).2 luck := by
  have hfit := hq.fits
  have hel : 1 ≤ (encName q.name).length := by simp [encName]
  have hlen : q.question.length = (encName q.name).length + 4 := by simp [Quest.question, be16]
  rw [List.length_append, enc_len] at hfit
  have e1 : q.bytes.take 255 = q.header.enc ++ (q.question ++ q.rest.take (255 - (12 + q.question.length))) := by
    unfold Quest.bytes
    rw [List.take_append, List.take_of_length_le (by simp [enc_len]; omega)]
    simp [enc_len]
  obtain ⟨t, ht, htl⟩ := fill_at 500 (q.bytes.take 255) junk (by simp; omega)
  rw [e1] at ht htl
  simp only [List.append_assoc] at ht
  generalize hu : q.rest.take (255 - (12 + q.question.length)) = u at *
  have hul : u.length ≤ 255 - (12 + q.question.length) := by rw [← hu]; simp; omega
  simp only [List.length_append, enc_len] at htl
  refine ⟨{ q.header with qr := true, ancount := 1, arcount := 0 }.enc ++ (q.question ++ (u ++ t)), (encName q.name).length - 1,
    ⟨by omega, u ++ t, rfl, by simp; omega⟩, ?_⟩
  unfold question
  simp only
  have l0 : (q.bytes.take 255).length = 12 + (q.question.length + u.length) := by rw [e1]; simp [enc_len]
  rw [l0, if_neg (by omega), e1, ht, peek2]
  simp only [Dw.Res.ok_bind]
  rw [flags1_test, hq.query]
  simp only [Dw.Res.ok_bind, Bool.false_eq_true, if_false, ne_eq, not_true_eq_false]
  rw [prepare_enc _ _ (by omega) _ hq.one hq.an hq.ar]
  simp only [Dw.Res.ok_bind]
  generalize hb : ({ q.header with qr := true, ancount := 1, arcount := 0 } : Header).enc ++ (q.question ++ (u ++ t)) = buf
  have hd : buf.drop 12 = encName q.name ++ (be16 q.qtype ++ (be16 q.qclass ++ (u ++ t))) := by
    rw [← hb, List.drop_append]
    simp [enc_len, Quest.question]
  rw [human_name buf 12 490 _ q.name hq.labels hq.notRoot hd, if_pos hq.shows]
  simp only [Dw.Res.ok_bind]
  obtain ⟨l, ls, hne⟩ : ∃ l ls, q.name = l :: ls := by
    cases h : q.name with
    | nil => exact absurd h hq.notRoot
    | cons l ls => exact ⟨l, ls, rfl⟩
  have hl2 : 2 ≤ (encName q.name).length := by
    rw [hne, Spec.encName_cons]; simp [encName]; omega
  rw [if_neg (by omega)]
  have hd2 : buf.drop (13 + ((encName q.name).length - 1)) = be16 q.qtype ++ (be16 q.qclass ++ (u ++ t)) := by
    rw [show 13 + ((encName q.name).length - 1) = 12 + (encName q.name).length by omega, ← List.drop_drop, hd]
    simp
  have hqt := hq.qtype
  simp only [be16, List.cons_append, List.nil_append] at hd2
  rw [peek_drop hd2]; simp only [Dw.Res.ok_bind]
  rw [show 14 + ((encName q.name).length - 1) = 13 + ((encName q.name).length - 1) + 1 by omega, peek_drop (drop_get hd2).2]
  simp only [Dw.Res.ok_bind]
  have eqt : (UInt8.ofNat (q.qtype / 256)).toNat * 256 + (UInt8.ofNat q.qtype).toNat = q.qtype := by simp; omega
  rw [eqt]
  by_cases h4 : q.qtype = 255 ∨ q.qtype = 13
  · rw [if_pos h4, if_pos h4]
    have hp := pokes_at anyAnswer ({ q.header with qr := true, ancount := 1, arcount := 0 }.enc ++ q.question) ((u ++ t).take 22) ((u ++ t).drop 22)
      (17 + ((encName q.name).length - 1)) (by simp [enc_len, hlen]; omega) (by simp [anyAnswer]; omega)
    rw [List.take_append_drop, List.append_assoc, hb] at hp
    rw [hp]; simp only [Dw.Res.ok_bind]
    rw [← List.append_assoc, front_at _ _ _ (by simp [enc_len, hlen, anyAnswer]; omega)]
    simp only [Dw.Res.ok_bind]
    congr 4
    simp [sent, Body.Special, Body.reply, Body.record, Body.header, be16, be32, anyAnswer]
  · rw [if_neg h4, if_neg h4]
    rfl

end Co
