import Verif.Deadwood.RemoteLemmas
/-!
# C37: replies that do not belong to a question are dropped
-/

namespace Dw
namespace Remote
open Acl (rd wr)
open Spec SR

/-- The reply belongs to the question: it has the same ID, it repeats the question up to
the case of letters, and it announces some record or question. -/
def Matches (sent reply : List UInt8) : Prop :=
  ∃ hs hr ls ms t0 t1, Legal ls t0 t1 ∧ Legal ms t0 t1 ∧ Asks sent hs ls t0 t1 ∧ Asks reply hr ms t0 t1 ∧
    hr.id = hs.id ∧ lowerLabels ms = lowerLabels ls ∧
    ¬ (hr.qdcount.val = 0 ∧ hr.ancount.val = 0 ∧ hr.nscount.val = 0 ∧ hr.arcount.val = 0)

theorem word_inj {m n : Fin 65536} (h : word m = word n) : m = n := by
  simp only [word, List.cons.injEq, and_true] at h
  have h1 := congrArg UInt8.toNat h.1
  have h2 := congrArg UInt8.toNat h.2
  have := m.isLt
  have := n.isLt
  simp only [UInt8.toNat_ofNat'] at h1 h2
  apply Fin.ext
  omega

theorem enc_parts {g h : Header} {p q : List UInt8} (he : g.enc ++ p = h.enc ++ q) :
    g.id = h.id ∧ g.qdcount = h.qdcount ∧ g.ancount = h.ancount ∧ g.nscount = h.nscount ∧ g.arcount = h.arcount ∧ p = q := by
  obtain ⟨h1, h2⟩ := List.append_inj he (by rw [enc_length, enc_length])
  have w : ∀ m n : Fin 65536, UInt8.ofNat (m.val / 256) = UInt8.ofNat (n.val / 256) → UInt8.ofNat m.val = UInt8.ofNat n.val → m = n :=
    fun m n e1 e2 => word_inj (by simp only [word, e1, e2])
  simp only [Header.enc, word, List.cons_append, List.nil_append, List.cons.injEq] at h1
  obtain ⟨a1, a2, -, -, a3, a4, a5, a6, a7, a8, a9, a10, -⟩ := h1
  exact ⟨w _ _ a1 a2, w _ _ a3 a4, w _ _ a5 a6, w _ _ a7 a8, w _ _ a9 a10, h2⟩

/-- A packet asks one question only. -/
theorem Asks.unique {p : List UInt8} {g h : Header} {ls ms : List (List UInt8)} {t0 t1 u0 u1 : UInt8}
    (hl : LabelsOk ls) (hm : LabelsOk ms) (h1 : Asks p g ls t0 t1) (h2 : Asks p h ms u0 u1) :
    g.id = h.id ∧ ls = ms ∧ t0 = u0 ∧ t1 = u1 := by
  obtain ⟨r, e1⟩ := h1
  obtain ⟨s, e2⟩ := h2
  obtain ⟨a1, -, -, -, -, a2⟩ := enc_parts (e1.symm.trans e2)
  have e := encName_inj hl hm a2
  subst e
  have := List.append_cancel_left a2
  simp only [List.cons_append, List.nil_append, List.cons.injEq] at this
  exact ⟨a1, rfl, this.1, this.2.1⟩

theorem setFlags2 (h : Header) (p : List UInt8) (up : Bool) :
    (rd (h.enc ++ p) 2 >>= fun f => wr (h.enc ++ p) 2 (if up then f ||| 1 else f &&& 0xfe)) =
      .ok ({ h with rd := up }.enc ++ p) := by
  have f : ∀ (qr : Bool) (op : Fin 16) (aa tc rd : Bool), flags1 qr op aa tc rd ||| 1 = flags1 qr op aa tc true := by
    decide +kernel
  have g : ∀ (qr : Bool) (op : Fin 16) (aa tc rd : Bool), flags1 qr op aa tc rd &&& 0xfe = flags1 qr op aa tc false := by
    decide +kernel
  cases up <;> simp [rd, wr, Header.enc, word, f, g]

theorem setQid_enc (h : Header) (p : List UInt8) (len rnd : Nat) (hl : 12 ≤ len) :
    Hdr.setDnsQid (h.enc ++ p) len rnd = .ok ((rnd : Int), (h.withId rnd).enc ++ p) := by
  have e1 : UInt8.ofNat (rnd % 65536 / 256) = UInt8.ofNat (rnd / 256) := by
    apply UInt8.toNat_inj.1; simp only [UInt8.toNat_ofNat']; omega
  have e2 : UInt8.ofNat (rnd % 65536) = UInt8.ofNat rnd := by
    apply UInt8.toNat_inj.1; simp only [UInt8.toNat_ofNat']; omega
  rw [Hdr.setDnsQid, if_neg (by omega)]
  simp [Header.withId, Header.enc, word, wr, e1, e2]

/-- C37, the outgoing half: the packet that is sent carries the random ID and the client's
question unchanged, and these two (the name in lower case) are what is remembered. -/
theorem sendQuery_exact {h : Header} {ls : List (List UInt8)} {t0 t1 : UInt8} (hl : Legal ls t0 t1) (rest : List UInt8)
    (len rnd : Nat) (up : Bool) (h1 : 12 + (encName ls).length + 2 ≤ len)
    (h2 : len ≤ (h.enc ++ (encName ls ++ ([t0, t1] ++ rest))).length) (h3 : len < 134217728) :
    sendQuery (h.enc ++ (encName ls ++ ([t0, t1] ++ rest))) len rnd up =
      .ok (({ h.withId rnd with rd := up }.enc ++ (encName ls ++ ([t0, t1] ++ rest))).take len,
        ⟨rnd, encName (lowerLabels ls) ++ [t0, t1]⟩) := by
  unfold sendQuery
  rw [question_of _ _ hl (question_found h hl.ok hl.noCtl hl.len t0 t1 hl.type rest len h1 h2 h3)]
  simp only [Res.ok_bind]
  rw [setQid_enc h _ len rnd (by omega)]
  simp only [Res.ok_bind]
  rw [if_neg (by omega)]
  have := setFlags2 (h.withId rnd) (encName ls ++ ([t0, t1] ++ rest)) up
  rcases hr : rd ((h.withId rnd).enc ++ (encName ls ++ ([t0, t1] ++ rest))) 2 with f | _ | _ <;> rw [hr] at this
  · simp only [Res.ok_bind] at this ⊢
    rw [this]
    simp only [Res.ok_bind, Int.toNat_natCast]
  · cases this
  · cases this

/-- Whatever is sent asks the remembered question. -/
theorem sendQuery_asks {packet : List UInt8} {len rnd : Nat} {up : Bool} {sent : List UInt8} {p : Pending} (h12 : 12 ≤ len)
    (hlen : len ≤ packet.length) (hmax : len < 134217728) (h : sendQuery packet len rnd up = .ok (sent, p)) :
    ∃ hs ls t0 t1, Legal ls t0 t1 ∧ Asks sent hs ls t0 t1 ∧ p.remoteId = rnd ∧ hs.id = Fin.ofNat 65536 rnd ∧
      p.query = encName (lowerLabels ls) ++ [t0, t1] := by
  rcases question_cases packet len h12 hlen hmax with ⟨g, -⟩ | ⟨h0, ls, t0, t1, hl, ⟨rest, ha⟩, -⟩
  · unfold sendQuery at h
    rw [g] at h
    cases h
  · have hp : packet = h0.enc ++ (encName ls ++ ([t0, t1] ++ (rest ++ packet.drop len))) := by
      conv_lhs => rw [← List.take_append_drop len packet, ha]
      simp
    have hle : 12 + (encName ls).length + 2 ≤ len := by
      have := congrArg List.length ha
      rw [List.length_take] at this
      simp only [List.length_append, enc_length, List.length_cons, List.length_nil] at this
      omega
    rw [hp] at h
    rw [sendQuery_exact hl _ len rnd up hle (by rw [← hp]; exact hlen) hmax] at h
    simp only [Res.ok.injEq, Prod.mk.injEq] at h
    obtain ⟨rfl, rfl⟩ := h
    refine ⟨{ h0.withId rnd with rd := up }, ls, t0, t1, hl, ?_, rfl, rfl, rfl⟩
    refine ⟨(rest ++ packet.drop len).take (len - 12 - (encName ls).length - 2), ?_⟩
    rw [List.take_append, enc_length, List.take_of_length_le (by rw [enc_length]; omega),
      List.take_append, List.take_of_length_le (by omega), List.take_append, List.take_of_length_le (l := [t0, t1]) (by simp; omega)]
    rfl

/-- **C37.** For every question sent and every packet that comes back, the packet is taken
as the reply exactly when it belongs to the question. -/
theorem verify_iff {packet : List UInt8} {len rnd : Nat} {up : Bool} {sent : List UInt8} {p : Pending} (h12 : 12 ≤ len)
    (hlen : len ≤ packet.length) (hmax : len < 134217728) (hr : rnd < 65536)
    (h : sendQuery packet len rnd up = .ok (sent, p)) (a : List UInt8) (count : Nat) (hc : 12 ≤ count) (hca : count ≤ a.length)
    (hc2 : count < 134217728) :
    ∃ b, verify p a count = .ok b ∧ (b = true ↔ Matches sent (a.take count)) := by
  obtain ⟨hs, ls, t0, t1, hl, hask, hid, hsid, hqy⟩ := sendQuery_asks h12 hlen hmax h
  obtain ⟨h0, q, hq⟩ := Hdr.header_of_bytes a (by omega)
  have htake : a.take count = h0.enc ++ q.take (count - 12) := by
    rw [hq, List.take_append, List.take_of_length_le (by rw [enc_length]; exact hc), enc_length]
  unfold verify
  rw [hq, qid_reply h0 q count hc, ← hq]
  simp only [Res.ok_bind]
  have hidv : hs.id.val = rnd := by rw [hsid]; exact Nat.mod_eq_of_lt hr
  by_cases hz : h0.qdcount.val = 0 ∧ h0.ancount.val = 0 ∧ h0.nscount.val = 0 ∧ h0.arcount.val = 0
  · rw [if_pos hz, if_pos (by omega)]
    refine ⟨false, rfl, by simp, ?_⟩
    rintro ⟨hs', hr', ls', ms, u0, u1, -, -, -, ⟨r, ha⟩, -, -, hnz⟩
    obtain ⟨-, e1, e2, e3, e4, -⟩ := enc_parts (htake.symm.trans ha)
    rw [e1, e2, e3, e4] at hz
    exact absurd hz hnz
  · rw [if_neg hz]
    by_cases hne : ((h0.id.val : Int) ≠ (p.remoteId : Int))
    · rw [if_pos hne]
      refine ⟨false, rfl, by simp, ?_⟩
      rintro ⟨hs', hr', ls', ms, u0, u1, hl', -, hask', ⟨r, ha⟩, hid', -, -⟩
      obtain ⟨e1, -⟩ := enc_parts (htake.symm.trans ha)
      have := (hask.unique hl.ok hl'.ok hask').1
      rw [e1, hid', ← this, hidv] at hne
      omega
    · rw [if_neg hne]
      rcases question_cases a count hc hca hc2 with ⟨g1, g2⟩ | ⟨hr', ms, u0, u1, hm, hasks, g⟩
      · rw [g1]
        refine ⟨false, rfl, by simp, ?_⟩
        rintro ⟨hs', hr', ls', ms, u0, u1, -, hm, -, hasks, -, -, -⟩
        exact absurd ⟨hr', ms, u0, u1, hm, hasks⟩ g2
      · rw [g]
        simp only
        have hm1 := hm.len
        have hl1 := hl.len
        have l1 : (encName (lowerLabels ms)).length = (encName ms).length := by
          simp [encName, encLabels_lower_length]
        have l2 : (encName (lowerLabels ls)).length = (encName ls).length := by
          simp [encName, encLabels_lower_length]
        rw [hqy, issame_iff (dstr_usable (by simp; omega)) (dstr_usable (by simp; omega)), dstr_contents, dstr_contents]
        simp only [Res.ok_bind]
        refine ⟨_, rfl, ?_⟩
        rw [decide_eq_true_iff, lower_question_inj hm.ok hl.ok]
        constructor
        · rintro ⟨e, rfl, rfl⟩
          refine ⟨hs, hr', ls, ms, u0, u1, hl, hm, hask, hasks, ?_, e, ?_⟩
          · obtain ⟨r, ha⟩ := hasks
            obtain ⟨e1, -⟩ := enc_parts (htake.symm.trans ha)
            rw [← e1]
            apply Fin.ext
            omega
          · obtain ⟨r, ha⟩ := hasks
            obtain ⟨-, e1, e2, e3, e4, -⟩ := enc_parts (htake.symm.trans ha)
            rw [e1, e2, e3, e4] at hz
            exact hz
        · rintro ⟨hs2, hr2, ls2, ms2, v0, v1, hl2, hm2, ha2, hb2, -, e2, -⟩
          obtain ⟨-, rfl, rfl, rfl⟩ := hask.unique hl.ok hl2.ok ha2
          obtain ⟨-, rfl, rfl, rfl⟩ := hasks.unique hm.ok hm2.ok hb2
          exact ⟨e2, rfl, rfl⟩

end Remote
end Dw
