import Verif.Mara.ServeZone
import Verif.Mara.ServeRead
import Verif.Mara.Csv2File
import Verif.Mara.ReplySqueeze
/-!
# The zone transfer server: messages and loops
-/

namespace Mara
namespace Serve

open Dw (Res)
open Spec (Name Host ZoneLine Given encName LabelsOk lowName madeNs madeSoa be16 be32)
open Spec.Serve
open Big (base)
open Csv2 (jsAppend add16 add32 Entry toEntry)
open Zf (Env St Rr envOf toRr ZoneOk)

variable {h : Host} {zone : Name}

/-! ## Messages -/

theorem jsAppend_ok {max : Nat} {o l : List UInt8} (h : o.length + l.length < max) : jsAppend max o l = some (o ++ l) := by
  unfold jsAppend
  rw [if_neg (by omega)]

theorem add16_ok {max : Nat} {o : List UInt8} {n : Nat} (hn : n ≤ 65535) (h : o.length + 2 < max) : add16 max o n = some (o ++ be16 n) := by
  unfold add16
  rw [if_neg (by omega), jsAppend_ok (by simpa using h)]
  rfl

theorem u32_be32 {n : Nat} (hn : n < 2 ^ 32) : Zf.u32 n = be32 n := by
  unfold Zf.u32 be32 be16
  have e : ∀ a b : Nat, a % 256 = b % 256 → UInt8.ofNat a = UInt8.ofNat b := by
    intro a b hab
    apply UInt8.toNat_inj.1
    rw [UInt8.toNat_ofNat', UInt8.toNat_ofNat']
    exact hab
  rw [e (n / 16777216) (n / 65536 / 256) (by omega), e (n / 256) (n % 65536 / 256) (by omega), e n (n % 65536) (by omega)]
  rfl

theorem copy_length (c : Copy) : c.bytes.length = (encName c.name).length + 10 + c.data.length := by
  unfold Copy.bytes be32
  simp [be16]
  omega

theorem appendRr_ok {o : List UInt8} {c : Copy} (ht : c.type ≤ 65535) (htl : c.ttl < 2 ^ 32) (h : o.length + c.bytes.length ≤ 2047) :
    appendRr o (rrOf c) = some (o ++ c.bytes) := by
  rw [copy_length] at h
  have l16 : ∀ n, (be16 n).length = 2 := fun _ => rfl
  have l32 : ∀ n, (be32 n).length = 4 := fun _ => rfl
  have he : (((c.ttl : Nat) : Int) % 4294967296).toNat = c.ttl := by omega
  unfold appendRr
  simp only [rrOf]
  rw [jsAppend_ok (by omega), Option.bind_eq_bind, Option.bind_some]
  rw [add16_ok ht (by rw [List.length_append]; omega), Option.bind_some]
  rw [add16_ok (by omega) (by simp only [List.length_append, l16]; omega), Option.bind_some]
  rw [he, show ∀ o n, add32 2048 o n = jsAppend 2048 o (Zf.u32 n) from fun _ _ => rfl, u32_be32 htl,
    jsAppend_ok (by simp only [List.length_append, l16, l32]; omega), Option.getD_some]
  rw [add16_ok (by omega) (by simp only [List.length_append, l16, l32]; omega), Option.bind_some]
  rw [jsAppend_ok (by simp only [List.length_append, l16, l32]; omega)]
  unfold Copy.bytes
  simp only [List.append_assoc]

theorem flags_sent (x : UInt8) : (128 : UInt8) ||| (UInt8.ofNat ((x &&& 120) >>> 3).toNat &&& 15) <<< 3 ||| 4 ||| 0 ||| (if x &&& 1 != 0 then 1 else 0) =
    (x &&& 121) ||| 132 := by
  have key : ∀ n : Fin 256, (fun x : UInt8 => (128 : UInt8) ||| (UInt8.ofNat ((x &&& 120) >>> 3).toNat &&& 15) <<< 3 ||| 4 ||| 0 |||
    (if x &&& 1 != 0 then 1 else 0) = (x &&& 121) ||| 132) (UInt8.ofNat n) := by decide +kernel
  have := key ⟨x.toNat, x.toNat_lt⟩
  simpa using this

theorem head_ok {q : List UInt8} {hd : Reply.Hdr} (h : Reply.readHdr q = some hd) (ns : Nat) :
    head hd ns = [q.getD 0 0, q.getD 1 0, (q.getD 2 0 &&& 121) ||| 132, 0] ++ be16 1 ++ be16 1 ++ be16 ns ++ be16 0 := by
  match q, h with
  | a :: b :: x :: y :: q :: q' :: n :: n' :: s :: s' :: r :: r' :: _, h =>
    cases h
    unfold head Reply.makeHdr
    simp only
    rw [Reply.put16_bytes]
    simp only [if_true]
    rw [show (if false = true then (2 : UInt8) else 0) = 0 from rfl, flags_sent,
      show ((if false = true then (128 : UInt8) else 0) ||| (UInt8.ofNat 0 &&& 7) <<< 4 ||| UInt8.ofNat 0 &&& 15) = 0 by decide]
    rfl

theorem head_length (hd : Reply.Hdr) (ns : Nat) : (head hd ns).length = 12 := rfl

theorem framed_be (o : List UInt8) : framed o = be16 o.length ++ o := rfl

theorem spit_ok {q : List UInt8} {hd : Reply.Hdr} (hq : Reply.readHdr q = some hd) {soa c : Copy} (hf : Fits soa c) :
    spit hd (rrOf soa) (rrOf c) = some (message q soa.name 252 c []) := by
  have h1 := hf.size
  have h2 := copy_length c
  have l16 : ∀ n, (be16 n).length = 2 := fun _ => rfl
  unfold spit
  rw [show (rrOf soa).query = encName soa.name from rfl]
  rw [jsAppend_ok (by rw [head_length]; omega), Option.bind_eq_bind, Option.bind_some]
  rw [add16_ok (by omega) (by rw [List.length_append, head_length]; omega), Option.bind_some]
  rw [add16_ok (by omega) (by simp only [List.length_append, head_length, l16]; omega), Option.bind_some]
  rw [appendRr_ok hf.type hf.ttl (by simp only [List.length_append, head_length, l16]; omega), Option.bind_some]
  rw [head_ok hq, framed_be]
  unfold message
  simp only [List.flatMap_nil, List.append_nil, List.length_nil]

theorem spitAll_ok {q : List UInt8} {hd : Reply.Hdr} (hq : Reply.readHdr q = some hd) {soa : Copy} : ∀ {l : List Copy}, (∀ c ∈ l, Fits soa c) →
    spitAll hd (rrOf soa) (l.map rrOf) = (l.map (fun c => message q soa.name 252 c []), true)
  | [], _ => rfl
  | c :: l, hl => by
    rw [List.map_cons, spitAll, spit_ok hq (hl c (List.mem_cons_self ..)), spitAll_ok hq (fun x hx => hl x (List.mem_cons_of_mem _ hx))]
    rfl

theorem appendRrs_ok : ∀ {l : List Copy} {o : List UInt8}, (∀ c ∈ l, c.type ≤ 65535 ∧ c.ttl < 2 ^ 32) → o.length + (l.flatMap Copy.bytes).length ≤ 2047 →
    appendRrs (l.map rrOf) o = some (o ++ l.flatMap Copy.bytes)
  | [], o, _, _ => by simp [appendRrs]
  | c :: l, o, hl, hs => by
    obtain ⟨h1, h2⟩ := hl c (List.mem_cons_self ..)
    rw [List.flatMap_cons, List.length_append] at hs
    rw [List.map_cons, appendRrs, appendRr_ok h1 h2 (by omega), Option.bind_some,
      appendRrs_ok (fun x hx => hl x (List.mem_cons_of_mem _ hx)) (by rw [List.length_append]; omega), List.flatMap_cons, List.append_assoc]

/-! ## Loops -/

theorem addEntry_ok (hz : ZoneOk h zone) {e : ZoneLine} (he : LineOk zone e) {n : Nat} (hn : 1 ≤ n) (i ns : Bool) (b o : List Rr)
    (hb : b.length + (emit h zone i ns e).1.length ≤ 66) :
    addEntry (env2 h zone) ⟨n, i, ns, b, o⟩ (toEntry e) =
      .ok (put ⟨n + 1, (emit h zone i ns e).2.1, (emit h zone i ns e).2.2, b, o⟩ (emit h zone i ns e).1) := by
  obtain ⟨x, hx⟩ := addRr_emit hz he n hn i ns b o hb
  unfold addEntry
  simp only [toEntry]
  rw [show (⟨base e.star e.name, e.type, e.ttl, e.data⟩ : Rr) = toRr e from rfl, hx, Res.ok_bind]

/-- The reader finds the records `l` one after the other, and then the end of the file or a mistake. -/
inductive Yields2 {R : Type} (read : R → Res (Got × R)) : R → List Entry → Prop
  | stop {r r' g} (h : read r = .ok (g, r')) (hg : g = .stop ∨ g = .bad) : Yields2 read r []
  | cons {r r' e l} (h : read r = .ok (.rr e, r')) (hl : Yields2 read r' l) : Yields2 read r (e :: l)

theorem Yields.two {R : Type} {read : R → Res (Got × R)} {fin : Bool} {r : R} {l : List Entry} (h : Yields read fin r l) : Yields2 read r l := by
  induction h with
  | stop hf h1 h2 h3 => exact .stop h1 (.inl rfl)
  | bad hf h => exact .stop h (.inr rfl)
  | cons h hl ih => exact .cons h ih

theorem nsRoom (i ns : Bool) (e : ZoneLine) :
    (emit h zone i ns e).1.length + (if (emit h zone i ns e).2.1 = true ∧ (emit h zone i ns e).2.2 = false then 2 * h.chosen.length else 0) ≤
      2 + (if i = true ∧ ns = false then 2 * h.chosen.length else 0) := by
  have hl := lineSent_length (zone := zone) e
  have hm := madeNs_length (h := h) (zone := zone)
  by_cases h6 : e.type = 6
  · rw [emit6 h6]; simp
  by_cases ho : e.own zone = true
  · rw [emitOwn h6 ho]
    cases i <;> simp <;> omega
  · rw [emitOther h6 ho]
    simp only [List.length_append]
    split <;> simp <;> omega

theorem put_state (n : Nat) (i ns : Bool) (b o : List Rr) (l : List Copy) : put ⟨n, i, ns, b, o⟩ l = ⟨n, i, ns, b ++ l.map rrOf, o⟩ := rfl

theorem batch_ok (hz : ZoneOk h zone) {R : Type} {read : R → Res (Got × R)} : ∀ {n : Nat} {l : List ZoneLine} {r : R} {m : Nat} {i ns : Bool} {b o : List Rr},
    Yields2 read r (l.map toEntry) → (∀ e ∈ l, LineOk zone e) → 1 ≤ m →
    b.length + 2 * n + (if i = true ∧ ns = false then 2 * h.chosen.length else 0) ≤ 66 →
    ∃ m' r', 1 ≤ m' ∧ batch read (env2 h zone) n ⟨m, i, ns, b, o⟩ r =
      .ok (some (put ⟨m', (after zone i ns (l.take n)).1, (after zone i ns (l.take n)).2, b, o⟩ (emits h zone i ns (l.take n)), r', decide (n ≤ l.length))) ∧
      (n ≤ l.length → Yields2 read r' ((l.drop n).map toEntry))
  | 0, l, r, m, i, ns, b, o, hy, he, hm, hb => by
    refine ⟨m, r, hm, ?_, fun _ => by simpa using hy⟩
    rw [batch, List.take_zero, emits, put_nil]
    simp [after]
  | n + 1, [], r, m, i, ns, b, o, hy, he, hm, hb => by
    cases hy with
    | stop hr hg =>
      rename_i r' g
      refine ⟨m, r', hm, ?_, fun hc => absurd hc (by simp)⟩
      rw [batch, hr, Res.ok_bind]
      rcases hg with rfl | rfl
      · simp [emits, put_nil, after]
      · simp [emits, put_nil, after]
  | n + 1, e :: l, r, m, i, ns, b, o, hy, he, hm, hb => by
    cases hy with
    | cons hr hl =>
      rename_i r'
      have hroom := nsRoom (h := h) (zone := zone) i ns e
      obtain ⟨m', r2, h1, h2, h3⟩ := batch_ok hz (n := n) (i := (emit h zone i ns e).2.1) (ns := (emit h zone i ns e).2.2)
        (b := b ++ (emit h zone i ns e).1.map rrOf) (o := o) (m := m + 1)
        hl (fun x hx => he x (List.mem_cons_of_mem _ hx)) (by omega) (by rw [List.length_append, List.length_map]; omega)
      refine ⟨m', r2, h1, ?_, fun hc => by simpa using h3 (by simpa using hc)⟩
      rw [batch, hr, Res.ok_bind]
      simp only
      rw [addEntry_ok hz (he e (List.mem_cons_self ..)) hm i ns b o (by omega), Res.ok_bind, put_state, h2]
      rw [List.take_succ_cons, emits, after, emit_after (h := h) ⟨[], 0, none⟩]
      simp only [put_state, List.map_append, List.append_assoc, List.length_cons, Nat.add_le_add_iff_right]

theorem batches_ok (hz : ZoneOk h zone) (hch : h.chosen.length ≤ 13) {R : Type} {read : R → Res (Got × R)} {q : List UInt8} {hd : Reply.Hdr}
    (hq : Reply.readHdr q = some hd) {soa : Copy} (hs : Fits soa soa) :
    ∀ {n : Nat} {l : List ZoneLine} {r : R} {m : Nat} {i ns : Bool} {o : List Rr},
    Yields2 read r (l.map toEntry) → (∀ e ∈ l, LineOk zone e) → 1 ≤ m → l.length < 20 * n → (∀ c ∈ emits h zone i ns l, Fits soa c) →
    batches read (env2 h zone) hd (rrOf soa) n ⟨m, i, ns, [], o⟩ r =
      .ok (some ((emits h zone i ns l ++ [soa]).map (fun c => message q soa.name 252 c []), true))
  | 0, l, r, m, i, ns, o, hy, he, hm, hlen, hf => by omega
  | n + 1, l, r, m, i, ns, o, hy, he, hm, hlen, hf => by
    have hlast : lastSoa hd (rrOf soa) = ([message q soa.name 252 soa []], true) := by
      unfold lastSoa
      rw [spit_ok hq hs]
    obtain ⟨m', r', h1, h2, h3⟩ := batch_ok hz (n := 20) (b := []) (o := o) hy he hm (by split <;> simp <;> omega)
    have hall : emits h zone i ns l = emits h zone i ns (l.take 20) ++ emits h zone (after zone i ns (l.take 20)).1 (after zone i ns (l.take 20)).2 (l.drop 20) := by
      rw [← emits_append, List.take_append_drop]
    rw [batches, h2, Res.ok_bind]
    simp only [put_state, List.nil_append, spitAll_ok hq (fun c hc => hf c (by rw [hall]; exact List.mem_append_left _ hc)),
      Bool.true_eq_false, if_false]
    by_cases hm20 : 20 ≤ l.length
    · have ih := batches_ok hz hch hq hs (n := n) (l := l.drop 20) (r := r') (m := m') (i := (after zone i ns (l.take 20)).1)
        (ns := (after zone i ns (l.take 20)).2) (o := o) (h3 hm20) (fun x hx => he x (List.mem_of_mem_drop hx)) h1
        (by rw [List.length_drop]; omega) (fun c hc => hf c (by rw [hall]; exact List.mem_append_right _ hc))
      rw [if_neg (by simpa using hm20), ih, Res.ok_bind, hall]
      simp only [List.map_append, List.append_assoc]
    · rw [if_pos (by simpa using hm20), hlast]
      have : l.drop 20 = [] := List.drop_eq_nil_of_le (by omega)
      rw [hall, this]
      simp [emits]

theorem firstRoom (n : Nat) (ns : Bool) (e : ZoneLine) :
    (emit h zone true ns e).1.length + (if (emit h zone true ns e).2.1 = true then n + 1 + (if (emit h zone true ns e).2.2 = false then 2 * h.chosen.length else 0) else 0) ≤
      n + 2 + (if ns = false then 2 * h.chosen.length else 0) := by
  have hl := lineSent_length (zone := zone) e
  have hm := madeNs_length (h := h) (zone := zone)
  by_cases h6 : e.type = 6
  · rw [emit6 h6]; simp
  by_cases ho : e.own zone = true
  · have h1 : (lineSent zone e).length = 1 := by
      unfold lineSent
      rw [Zf.stands_plain (by have := (of_decide_eq_true ho).2.2; omega)]
      rfl
    rw [emitOwn h6 ho]
    simp [h1]
    omega
  · rw [emitOther h6 ho]
    simp only [List.length_append]
    cases ns <;> simp <;> omega

/-- The first loop: it reads `l1`. -/
theorem firstLoop_ok (hz : ZoneOk h zone) {R : Type} {read : R → Res (Got × R)} {fin : Bool} :
    ∀ {n : Nat} {l : List ZoneLine} {r : R} {m : Nat} {i ns : Bool} {b o : List Rr},
    Yields read fin r (l.map toEntry) → (∀ e ∈ l, LineOk zone e) → 1 ≤ m →
    b.length + (if i = true then n + 1 + (if ns = false then 2 * h.chosen.length else 0) else 0) ≤ 66 →
    (fin = false → n ≤ l.length ∨ i = false ∨ ∃ e ∈ l, e.type ≠ 6 ∧ e.own zone = false) →
    ∃ l1 l2 m' r', l = l1 ++ l2 ∧ 1 ≤ m' ∧ firstLoop read (env2 h zone) n ⟨m, i, ns, b, o⟩ r =
      .ok (some (put ⟨m', (after zone i ns l1).1, (after zone i ns l1).2, b, o⟩ (emits h zone i ns l1), r')) ∧
      Yields2 read r' (l2.map toEntry) ∧
      (l1.length = n ∨ l2 = [] ∨ (after zone i ns l1).1 = false) ∧ (i = true → ∀ e ∈ l1.dropLast, e.type = 6 ∨ e.own zone = true) ∧
      (i = false → l1 = [])
  | 0, l, r, m, i, ns, b, o, hy, he, hm, hb, hf =>
    ⟨[], l, m, r, rfl, hm, by rw [firstLoop, emits, put_nil]; rfl, hy.two, .inl rfl, fun _ e he => (by cases he), fun _ => rfl⟩
  | n + 1, l, r, m, false, ns, b, o, hy, he, hm, hb, hf =>
    ⟨[], l, m, r, rfl, hm, by rw [firstLoop, if_pos rfl, emits, put_nil]; rfl, hy.two, .inr (.inr rfl), fun hc => (by cases hc), fun _ => rfl⟩
  | n + 1, [], r, m, true, ns, b, o, hy, he, hm, hb, hf => by
    cases hy with
    | stop hfin hr h2 h3 =>
      exact ⟨[], [], m, _, rfl, hm, by rw [firstLoop, if_neg (by simp), hr, Res.ok_bind, emits, put_nil]; rfl, .stop h2 h3, .inr (.inl rfl), fun _ e he => (by cases he), fun _ => rfl⟩
    | bad hfin hr =>
      rcases hf hfin with hc | hc | ⟨e, he, _⟩
      · simp at hc
      · cases hc
      · cases he
  | n + 1, e :: l, r, m, true, ns, b, o, hy, he, hm, hb, hf => by
    cases hy with
    | cons hr hl =>
      have hroom := firstRoom (h := h) (zone := zone) n ns e
      rw [if_pos rfl] at hb
      obtain ⟨l1, l2, m', r2, h1, h2, h3, h4, h5, h6, h7⟩ := firstLoop_ok hz (n := n) (i := (emit h zone true ns e).2.1) (ns := (emit h zone true ns e).2.2)
        (b := b ++ (emit h zone true ns e).1.map rrOf) (o := o) (m := m + 1)
        hl (fun x hx => he x (List.mem_cons_of_mem _ hx)) (by omega) (by rw [List.length_append, List.length_map]; omega) (by
          intro hfin
          rcases hf hfin with hc | hc | ⟨x, hx, hc⟩
          · exact .inl (by simpa using hc)
          · cases hc
          · rcases List.mem_cons.1 hx with rfl | hx
            · refine .inr (.inl ?_)
              rw [emitOther hc.1 (by simp [hc.2])]
            · exact .inr (.inr ⟨x, hx, hc⟩))
      refine ⟨e :: l1, l2, m', r2, by rw [h1]; rfl, h2, ?_, h4, ?_, fun _ => ?_, fun hc => by cases hc⟩
      · rw [firstLoop, if_neg (by simp), hr, Res.ok_bind]
        simp only
        rw [addEntry_ok hz (he e (List.mem_cons_self ..)) hm true ns b o (by omega), Res.ok_bind, put_state, h3]
        rw [emits, after, emit_after (h := h) ⟨[], 0, none⟩]
        simp only [put_state, List.map_append, List.append_assoc]
      · rw [after, ← emit_after (h := h) ⟨[], 0, none⟩, List.length_cons, Nat.add_right_cancel_iff]
        exact h5
      · intro x hx
        cases l1 with
        | nil => cases hx
        | cons y l1 =>
          rw [List.dropLast_cons_of_ne_nil (by simp)] at hx
          by_cases hi : (emit h zone true ns e).2.1 = true
          · rcases List.mem_cons.1 hx with rfl | hx
            · by_cases hx6 : x.type = 6
              · exact .inl hx6
              · right
                by_contra ho
                rw [emitOther hx6 ho] at hi
                cases hi
            · exact h6 hi x hx
          · cases h7 (by simpa using hi)

/-- The first loop from the beginning. -/
theorem first_ok (hz : ZoneOk h zone) (hch : h.chosen.length ≤ 13) {R : Type} {read : R → Res (Got × R)} {fin : Bool} {es : List ZoneLine} {r : R}
    (hy : Yields read fin r (es.map toEntry)) (hne : es ≠ []) (he : ∀ e ∈ es, LineOk zone e)
    (hs : ∀ e, es.head? = some e → e.type = 6 → e.star = false)
    (hf : fin = false → 29 ≤ es.length ∨ ∃ e ∈ es, e.type ≠ 6 ∧ e.own zone = false) :
    ∃ l1 l2 m' r', bodySent h zone es = bodySent h zone (l1 ++ l2) ∧ l2.length ≤ es.length ∧ (∀ e ∈ l1 ++ l2, e ∈ es) ∧ 1 ≤ m' ∧
      firstLoop read (env2 h zone) 29 St.init r = .ok (some (⟨m', (after zone true false l1).1, (after zone true false l1).2,
        (soaOf h zone es :: emits h zone true false l1).map rrOf, []⟩, r')) ∧
      Yields2 read r' (l2.map toEntry) ∧
      (28 ≤ l1.length ∨ l2 = [] ∨ (after zone true false l1).1 = false) ∧ (∀ e ∈ l1.dropLast, e.type = 6 ∨ e.own zone = true) ∧
      (es = l1 ++ l2 ∨ ∃ e, e.type = 6 ∧ es = e :: (l1 ++ l2)) := by
  match es, hne with
  | e :: es, _ =>
  have h1 := he e (List.mem_cons_self ..)
  have h2 := fun x hx => he x (List.mem_cons_of_mem _ hx)
  cases hy with
  | cons hr hl =>
    by_cases h6 : e.type = 6
    · obtain ⟨l1, l2, m', r2, a1, a2, a3, a4, a5, a6, a7⟩ := firstLoop_ok hz (n := 28) (i := true) (ns := false)
        (b := [rrOf ⟨e.name, 6, e.ttl.toNat, e.data⟩]) (o := []) (m := 1) hl h2 (by omega) (by simp; omega) (by
          intro hfin
          rcases hf hfin with hc | ⟨x, hx, hc⟩
          · exact .inl (by simpa using hc)
          · rcases List.mem_cons.1 hx with rfl | hx
            · exact absurd h6 hc.1
            · exact .inr (.inr ⟨x, hx, hc⟩))
      have hb : restOf (e :: es) = restOf es := rest6 h6 es
      refine ⟨l1, l2, m', r2, ?_, ?_, ?_, a2, ?_, a4, ?_, a6 rfl, ?_⟩
      · unfold bodySent topOf othersOf
        rw [hb, a1]
      · rw [a1]; simp; omega
      · intro x hx; rw [← a1] at hx; exact List.mem_cons_of_mem _ hx
      · rw [firstLoop, if_neg (by decide), hr, Res.ok_bind]
        simp only
        have hadd : addEntry (env2 h zone) St.init (toEntry e) = .ok ⟨1, true, false, [rrOf ⟨e.name, 6, e.ttl.toNat, e.data⟩], []⟩ := by
          unfold addEntry
          simp only [toEntry]
          rw [show (⟨base e.star e.name, e.type, e.ttl, e.data⟩ : Rr) = toRr e from rfl, addRr_soa2 h1 h6 (hs e rfl h6), Res.ok_bind]
        rw [hadd, Res.ok_bind, a3]
        simp [put_state, soaOf, h6]
      · rcases a5 with a5 | a5
        · exact .inl (by omega)
        · exact .inr a5
      · exact .inr ⟨e, h6, by rw [a1]⟩
    · have hroom := firstRoom (h := h) (zone := zone) 28 false e
      have hroom' := emit_length (h := h) (zone := zone) true false e
      rw [if_pos rfl] at hroom
      rw [if_pos ⟨rfl, rfl⟩] at hroom'
      obtain ⟨x, hx⟩ := addRr_first hz h1 h6 (by omega)
      obtain ⟨l1, l2, m', r2, a1, a2, a3, a4, a5, a6, a7⟩ := firstLoop_ok hz (n := 28) (i := (emit h zone true false e).2.1) (ns := (emit h zone true false e).2.2)
        (b := [rrOf (copy 86400 (madeSoa h zone))] ++ (emit h zone true false e).1.map rrOf) (o := []) (m := 1) hl h2 (by omega) (by
          simp only [List.length_append, List.length_map, List.length_singleton]; omega) (by
          intro hfin
          rcases hf hfin with hc | ⟨x, hx, hc⟩
          · exact .inl (by simpa using hc)
          · rcases List.mem_cons.1 hx with rfl | hx
            · refine .inr (.inl ?_)
              rw [emitOther hc.1 (by simp [hc.2])]
            · exact .inr (.inr ⟨x, hx, hc⟩))
      refine ⟨e :: l1, l2, m', r2, by rw [List.cons_append, ← a1], by rw [a1]; simp; omega, by intro x hx; rw [List.cons_append, ← a1] at hx; exact hx, a2, ?_, a4, ?_, ?_,
        .inl (by rw [List.cons_append, ← a1])⟩
      · rw [firstLoop, if_neg (by decide), hr, Res.ok_bind]
        simp only
        have hadd : addEntry (env2 h zone) St.init (toEntry e) = .ok (put ⟨1, (emit h zone true false e).2.1, (emit h zone true false e).2.2,
            [rrOf (copy 86400 (madeSoa h zone))], []⟩ (emit h zone true false e).1) := by
          unfold addEntry
          simp only [toEntry]
          rw [show (⟨base e.star e.name, e.type, e.ttl, e.data⟩ : Rr) = toRr e from rfl, hx, Res.ok_bind]
        rw [hadd, Res.ok_bind, put_state, a3, emits, after, emit_after (h := h) ⟨[], 0, none⟩]
        simp [put_state, soaOf, h6]
      · rw [after, ← emit_after (h := h) ⟨[], 0, none⟩]
        rcases a5 with a5 | a5
        · exact .inl (by simp; omega)
        · exact .inr a5
      · intro x hx
        cases l1 with
        | nil => cases hx
        | cons y l1 =>
          rw [List.dropLast_cons_of_ne_nil (by simp)] at hx
          by_cases hi : (emit h zone true false e).2.1 = true
          · rcases List.mem_cons.1 hx with rfl | hx
            · right
              by_contra ho
              rw [emitOther h6 ho] at hi
              cases hi
            · exact a6 hi x hx
          · cases a7 (by simpa using hi)

/-- The transfer, for any reader. -/
theorem transfer_ok (hz : ZoneOk h zone) (hch : h.chosen.length ≤ 13) {R : Type} {read : R → Res (Got × R)} {fin : Bool} {es : List ZoneLine} {r : R}
    (hy : Yields read fin r (es.map toEntry)) (hne : es ≠ []) (he : ∀ e ∈ es, LineOk zone e)
    (hs : ∀ e, es.head? = some e → e.type = 6 → e.star = false)
    (hf : fin = false → 29 ≤ es.length ∨ ∃ e ∈ es, e.type ≠ 6 ∧ e.own zone = false)
    (hlen : es.length < 2000000) (hfit : ∀ c ∈ zoneSent h zone es, Fits (soaOf h zone es) c)
    {q : List UInt8} {hd : Reply.Hdr} (hq : Reply.readHdr q = some hd) :
    transfer read (env2 h zone) hd false r = .ok (some (sending q (zoneSent h zone es), true)) := by
  obtain ⟨l1, l2, m', r', a1, a2, a3, a4, a5, a6, -, -, -⟩ := first_ok hz hch hy hne he hs hf
  have hbody : bodySent h zone es = emits h zone true false l1 ++ emits h zone (after zone true false l1).1 (after zone true false l1).2 l2 := by
    rw [a1, ← emits_body, emits_append]
  have hsoa : Fits (soaOf h zone es) (soaOf h zone es) := hfit _ (List.mem_cons_self ..)
  have hfit1 : ∀ c ∈ soaOf h zone es :: emits h zone true false l1, Fits (soaOf h zone es) c := by
    intro c hc
    refine hfit c ?_
    unfold zoneSent
    rw [hbody]
    rcases List.mem_cons.1 hc with rfl | hc
    · exact List.mem_cons_self ..
    · exact List.mem_cons_of_mem _ (List.mem_append_left _ hc)
  have hb := batches_ok hz hch hq hsoa (n := 100000) (i := (after zone true false l1).1) (ns := (after zone true false l1).2) (o := [])
    a6 (fun e hx => he e (a3 e (List.mem_append_right _ hx))) a4 (by omega) (fun c hc => hfit c (by
      unfold zoneSent
      rw [hbody]
      exact List.mem_cons_of_mem _ (List.mem_append_right _ hc)))
  have hall := spitAll_ok hq hfit1
  unfold transfer
  rw [a5, Res.ok_bind]
  rw [List.map_cons] at hall ⊢
  simp only [Bool.false_eq_true, if_false, hall, Bool.true_eq_false, hb, Res.ok_bind]
  unfold sending zoneSent
  simp only [hbody]
  simp

/-! ## The SOA record with the name servers -/

theorem after_other : ∀ {l : List ZoneLine} {i ns : Bool}, (∃ e ∈ l, e.type ≠ 6 ∧ e.own zone = false) → (after zone i ns l).1 = false := by
  have hfalse : ∀ {l : List ZoneLine} {ns : Bool}, (after zone false ns l).1 = false := by
    intro l
    induction l with
    | nil => intro ns; rfl
    | cons e l ih =>
      intro ns
      rw [after]
      have : (emit ⟨[], 0, none⟩ zone false ns e).2.1 = false := by
        unfold emit
        split
        · rfl
        split
        · rfl
        · rfl
      rw [this]
      exact ih
  intro l
  induction l with
  | nil => rintro i ns ⟨e, he, _⟩; cases he
  | cons x l ih =>
    rintro i ns ⟨e, he, h6, ho⟩
    rw [after]
    rcases List.mem_cons.1 he with rfl | he
    · rw [emitOther h6 (by simp [ho])]
      exact hfalse
    · exact ih ⟨e, he, h6, ho⟩

theorem first_other : ∀ {l1 : List ZoneLine} {ns : Bool}, (after zone true ns l1).1 = false → ∀ l2,
    ∃ e, (othersOf zone (l1 ++ l2)).head? = some e ∧ ∀ c ∈ lineSent zone e, c ∈ emits h zone true ns l1
  | [], ns, ha, l2 => by cases ha
  | e :: l1, ns, ha, l2 => by
    rw [after] at ha
    rw [List.cons_append, emits]
    by_cases h6 : e.type = 6
    · rw [emit6 h6] at ha ⊢
      obtain ⟨x, h1, h2⟩ := first_other (l1 := l1) ha l2
      refine ⟨x, ?_, fun c hc => List.mem_append_right _ (h2 c hc)⟩
      unfold othersOf at h1 ⊢
      rw [rest6 h6]
      exact h1
    by_cases ho : e.own zone = true
    · rw [emitOwn h6 ho, if_pos rfl] at ha ⊢
      obtain ⟨x, h1, h2⟩ := first_other (l1 := l1) ha l2
      refine ⟨x, ?_, fun c hc => List.mem_append_right _ (h2 c hc)⟩
      unfold othersOf at h1 ⊢
      rw [restCons h6, List.dropWhile_cons, if_pos ho]
      exact h1
    · refine ⟨e, ?_, fun c hc => List.mem_append_left _ ?_⟩
      · unfold othersOf
        rw [restCons h6, List.dropWhile_cons, if_neg ho, List.filter_cons, if_pos (by simpa using ho)]
        rfl
      · rw [emitOther h6 ho]
        exact List.mem_append_right _ hc

theorem lineSent_types {e : ZoneLine} (h2 : e.type ≠ 2) : ∃ c ∈ lineSent zone e, c.type ≠ 2 := by
  unfold lineSent ZoneLine.stands
  simp only
  split
  · exact ⟨_, List.mem_cons_self .., by simp [copy]⟩
  split
  · exact ⟨_, List.mem_cons_self .., by simp [copy]⟩
  · exact ⟨_, List.mem_cons_self .., h2⟩

theorem takeWhile_stop {α : Type} {p : α → Bool} : ∀ {a : List α} (b : List α), (∃ x ∈ a, p x = false) → (a ++ b).takeWhile p = a.takeWhile p
  | [], _, h => by obtain ⟨x, hx, _⟩ := h; cases hx
  | y :: a, b, ⟨x, hx, hp⟩ => by
    rw [List.cons_append, List.takeWhile_cons, List.takeWhile_cons]
    split
    · rename_i hy
      rcases List.mem_cons.1 hx with rfl | hx
      · rw [hp] at hy; cases hy
      · rw [takeWhile_stop b ⟨x, hx, hp⟩]
    · rfl

theorem takeWhile_rr (l : List Copy) : (l.map rrOf).takeWhile (fun x => decide (x.type = 2)) = (l.takeWhile fun c => decide (c.type = 2)).map rrOf := by
  induction l with
  | nil => rfl
  | cons c l ih =>
    rw [List.map_cons, List.takeWhile_cons, List.takeWhile_cons]
    by_cases hc : c.type = 2
    · rw [if_pos (decide_eq_true (p := c.type = 2) hc), if_pos (show decide ((rrOf c).type = 2) = true from decide_eq_true hc), List.map_cons, ih]
    · rw [if_neg (show ¬ decide (c.type = 2) = true by simpa using hc), if_neg (show ¬ decide ((rrOf c).type = 2) = true from fun hx => hc (of_decide_eq_true hx))]
      rfl

theorem spitSoa_ok {q : List UInt8} {hd : Reply.Hdr} (hq : Reply.readHdr q = some hd) {soa : Copy} {l ns : List Copy}
    (hns : (l.takeWhile fun c => decide (c.type = 2)) = ns) (h1 : soa.type ≤ 65535) (h2 : soa.ttl < 2 ^ 32) (h3 : ∀ c ∈ ns, c.type ≤ 65535 ∧ c.ttl < 2 ^ 32)
    (hsz : 12 + (encName zone).length + 4 + soa.bytes.length + (ns.flatMap Copy.bytes).length ≤ 2047) :
    spitSoa hd (encName zone) ((soa :: l).map rrOf) = some (message q zone 6 soa ns) := by
  have l16 : ∀ n, (be16 n).length = 2 := fun _ => rfl
  rw [List.map_cons]
  unfold spitSoa
  simp only
  rw [takeWhile_rr, hns, List.length_map]
  rw [jsAppend_ok (by rw [head_length]; omega), Option.bind_eq_bind, Option.bind_some]
  rw [add16_ok (by omega) (by rw [List.length_append, head_length]; omega), Option.bind_some]
  rw [add16_ok (by omega) (by simp only [List.length_append, head_length, l16]; omega), Option.bind_some]
  rw [appendRr_ok h1 h2 (by simp only [List.length_append, head_length, l16]; omega), Option.bind_some]
  rw [appendRrs_ok h3 (by simp only [List.length_append, head_length, l16]; omega), Option.bind_some]
  rw [head_ok hq, framed_be]
  unfold message
  simp only

/-- What the client that asks for the SOA record first gets, for any reader. -/
theorem transfer_soa (hz : ZoneOk h zone) (hch : h.chosen.length ≤ 13) {R : Type} {read : R → Res (Got × R)} {es : List ZoneLine} {r : R}
    (hy : Yields read true r (es.map toEntry)) (hne : es ≠ []) (he : ∀ e ∈ es, LineOk zone e)
    (hs : ∀ e, es.head? = some e → e.type = 6 → e.star = false)
    (hlen : es.length < 2000000) (hfit : ∀ c ∈ zoneSent h zone es, Fits (soaOf h zone es) c)
    (htop : es.length ≤ 28 ∨ ∃ e ∈ es.take 28, e.type ≠ 6 ∧ e.own zone = false)
    (hdel : ∀ e, (othersOf zone es).head? = some e → e.type ≠ 2)
    (hsz : 12 + (encName zone).length + 4 + (soaOf h zone es).bytes.length +
      (((bodySent h zone es).takeWhile fun c => decide (c.type = 2)).flatMap Copy.bytes).length ≤ 2047)
    {q : List UInt8} {hd : Reply.Hdr} (hq : Reply.readHdr q = some hd) :
    transfer read (env2 h zone) hd true r =
      .ok (some (message q zone 6 (soaOf h zone es) ((bodySent h zone es).takeWhile fun c => decide (c.type = 2)) :: sending q (zoneSent h zone es), true)) := by
  obtain ⟨l1, l2, m', r', a1, a2, a3, a4, a5, a6, a7, a8, a9⟩ := first_ok hz hch hy hne he hs (fun hc => by cases hc)
  have hbody : bodySent h zone es = emits h zone true false l1 ++ emits h zone (after zone true false l1).1 (after zone true false l1).2 l2 := by
    rw [a1, ← emits_body, emits_append]
  have hsoa : Fits (soaOf h zone es) (soaOf h zone es) := hfit _ (List.mem_cons_self ..)
  have hend : l2 = [] ∨ (after zone true false l1).1 = false := by
    rcases a7 with a7 | a7
    · rcases htop with ht | ⟨e, he, h6, ho⟩
      · left
        rcases a9 with a9 | ⟨x, _, a9⟩
        · rw [a9, List.length_append] at ht
          exact List.length_eq_zero_iff.1 (by omega)
        · rw [a9, List.length_cons, List.length_append] at ht
          exact List.length_eq_zero_iff.1 (by omega)
      · right
        refine after_other ⟨e, ?_, h6, ho⟩
        rcases a9 with a9 | ⟨x, hx, a9⟩
        · rw [a9, List.take_append_of_le_length a7] at he
          exact List.mem_of_mem_take he
        · rw [a9, show 28 = 27 + 1 from rfl, List.take_succ_cons] at he
          rcases List.mem_cons.1 he with rfl | he
          · exact absurd hx h6
          · rw [List.take_append_of_le_length (by omega)] at he
            exact List.mem_of_mem_take he
    · exact a7
  have hoth : othersOf zone es = othersOf zone (l1 ++ l2) := by
    rcases a9 with a9 | ⟨x, hx, a9⟩
    · rw [← a9]
    · rw [a9]
      unfold othersOf
      rw [rest6 hx]
  have hns : (emits h zone true false l1).takeWhile (fun c => decide (c.type = 2)) = (bodySent h zone es).takeWhile fun c => decide (c.type = 2) := by
    rw [hbody]
    rcases hend with rfl | hend
    · rw [emits, List.append_nil]
    · obtain ⟨e, h1, h2⟩ := first_other (h := h) hend l2
      obtain ⟨c, hc, hc2⟩ := lineSent_types (zone := zone) (hdel e (by rw [hoth]; exact h1))
      rw [takeWhile_stop _ ⟨c, h2 c hc, by simpa using hc2⟩]
  have hsp := spitSoa_ok (zone := zone) hq hns hsoa.type hsoa.ttl (fun c hc => by
    have := hfit c (List.mem_cons_of_mem _ (List.takeWhile_prefix _ |>.subset hc))
    exact ⟨this.type, this.ttl⟩) hsz
  have hfit1 : ∀ c ∈ soaOf h zone es :: emits h zone true false l1, Fits (soaOf h zone es) c := by
    intro c hc
    refine hfit c ?_
    unfold zoneSent
    rw [hbody]
    rcases List.mem_cons.1 hc with rfl | hc
    · exact List.mem_cons_self ..
    · exact List.mem_cons_of_mem _ (List.mem_append_left _ hc)
  have hb := batches_ok hz hch hq hsoa (n := 100000) (i := (after zone true false l1).1) (ns := (after zone true false l1).2) (o := [])
    a6 (fun e hx => he e (a3 e (List.mem_append_right _ hx))) a4 (by omega) (fun c hc => hfit c (by
      unfold zoneSent
      rw [hbody]
      exact List.mem_cons_of_mem _ (List.mem_append_right _ hc)))
  have hall := spitAll_ok hq hfit1
  unfold transfer
  rw [a5, Res.ok_bind]
  simp only [if_true]
  rw [show (env2 h zone).zone = encName zone from rfl, hsp]
  rw [List.map_cons] at hall ⊢
  simp only [Option.map_some, hall, Bool.true_eq_false, if_false, hb, Res.ok_bind]
  unfold sending zoneSent
  simp only [hbody]
  simp

end Serve
end Mara
