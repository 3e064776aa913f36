import Verif.Mara.ReplySent
import Verif.Mara.LookupLemmas
import Mathlib.Data.List.TakeWhile
/-!
# Lemmas: `udpsuccess` as a whole
-/

namespace Mara
namespace Reply

open Spec
open Dw (Res)

/-- Every chain is made of answers and name servers. -/
theorem parts_exist {h : Heap} {rec : Nat → Rec} (hg : Good h rec) (t : Nat) {first : Nat} (hf : first < h.length) :
    ∃ as nss, Chain h (some first) (as ++ nss) ∧ Parts h t as nss := by
  obtain ⟨l, hl⟩ := hg.chain first hf
  by_cases ht : t = 2
  · exact ⟨first :: l, [], by simpa using hl, .inl ⟨ht, rfl⟩⟩
  · refine ⟨(first :: l).takeWhile (fun i => (rec i).type != 2), (first :: l).dropWhile (fun i => (rec i).type != 2), ?_, .inr ⟨ht, ?_, ?_⟩⟩
    · rw [List.takeWhile_append_dropWhile]; exact hl
    · intro i hi p hp
      have := List.mem_takeWhile_imp hi
      rw [(hg.holds i p hp).type]
      simpa using this
    · match hd : (first :: l).dropWhile (fun i => (rec i).type != 2) with
      | [] => intro i hi; cases hi
      | j :: m =>
        have hc : Chain h (some j) (j :: m) := by
          have : first :: l = (first :: l).takeWhile (fun i => (rec i).type != 2) ++ j :: m := by
            rw [← hd, List.takeWhile_append_dropWhile]
          rw [this] at hl
          exact hl.suffix
        refine ns_tail hg hc ?_
        intro i p hi hp
        cases hi
        rw [(hg.holds j p hp).type]
        have := List.head_dropWhile_not (fun i => (rec i).type != 2) (l := first :: l) (by rw [hd]; simp)
        simp only [hd, List.head_cons] at this
        simpa using this

theorem second_eq {h : Heap} {rec : Nat → Rec} (hg : Good h rec) {t first : Nat} {as nss : List Nat}
    (hc : Chain h (some first) (as ++ nss)) (hp : Parts h t as nss) {p : Node} (hf : h[first]? = some p) :
    ∃ second : Option Nat, ((p.next = none ∧ second = none) ∨
      ∃ j q, p.next = some j ∧ deref h j = .ok q ∧ second = if t ≠ 2 ∧ q.type = 2 then none else some j) ∧ (t ≠ 2 → second = as[1]?) := by
  have hx : ∃ l, as ++ nss = first :: l ∧ Chain h p.next l := by
    generalize hL : as ++ nss = L at hc
    cases hc with
    | @cons _ q l hq hc =>
      rw [hf] at hq
      cases hq
      exact ⟨l, rfl, hc⟩
  obtain ⟨l, hl, hc'⟩ := hx
  cases hn : p.next with
  | none =>
    refine ⟨none, .inl ⟨rfl, rfl⟩, ?_⟩
    intro _
    rw [hn] at hc'
    cases hc'
    symm
    rw [List.getElem?_eq_none_iff]
    have := congrArg List.length hl
    simp at this
    omega
  | some j =>
    obtain ⟨q, hq, hq2, -⟩ := hg.next first p j hf hn
    refine ⟨_, .inr ⟨j, q, rfl, by unfold deref; rw [hq], rfl⟩, ?_⟩
    intro ht
    rcases hp with ⟨h2, -⟩ | ⟨-, hA, hN⟩
    · exact absurd h2 ht
    rw [hn] at hc'
    cases hc' with
    | @cons _ q' l' _ _ =>
    match as, hl, hA with
    | [], hl, _ =>
      rw [List.nil_append] at hl
      rw [if_pos ⟨ht, hN j (by rw [hl]; simp) q hq⟩]
      rfl
    | [x], hl, _ =>
      simp only [List.cons_append, List.nil_append, List.cons.injEq] at hl
      rw [if_pos ⟨ht, hN j (by rw [hl.2]; simp) q hq⟩]
      rfl
    | x :: y :: r, hl, hA =>
      simp only [List.cons_append, List.cons.injEq] at hl
      obtain ⟨-, rfl, -⟩ := hl
      rw [if_neg (fun h => hA y (by simp) q hq h.2)]
      rfl

theorem front_sub {rec : Nat → Rec} {l : List Nat} : ∀ j ∈ front rec l, j ∈ l := fun _ hj => (List.takeWhile_prefix _).subset hj

theorem groups_lt {cfg : Cfg} {h : Heap} {rec : Nat → Rec} (hg : Good h rec) {i j : Nat} {g : List Nat} (hgm : g ∈ groups cfg rec h i) (hj : j ∈ g) :
    j < h.length := by
  unfold groups at hgm
  split at hgm
  · cases hgm
  · rename_i p hp
    have h4 := (hg.chainOf (o := p.ip) (fun k hk => hg.ip i p k hp hk)).lt
    have h6 := (hg.chainOf (o := p.ip6) (fun k hk => hg.ip6 i p k hp hk)).lt
    split at hgm
    · cases hgm
    · rcases List.mem_cons.1 hgm with rfl | hgm
      · exact h4 j (front_sub j hj)
      · split at hgm
        · simp only [List.mem_singleton] at hgm
          subst hgm
          exact h6 j (front_sub j hj)
        · cases hgm

theorem aliases_lt {h : Heap} {rec : Nat → Rec} (hg : Good h rec) {t i j : Nat} (hj : j ∈ aliases rec h t i) : j < h.length := by
  unfold aliases at hj
  split at hj
  · cases hj
  · rename_i p hp
    split at hj
    · unfold lead at hj
      exact (hg.chainOf (onList_lt hg hp t)).lt j ((List.takeWhile_prefix _).subset (List.mem_of_mem_take hj))
    · cases hj

theorem after_length (cfg : Cfg) (t : Nat) (h : Heap) (as nss : List Nat) (head : Nat) : (after cfg t h as nss head).1.length = h.length := by
  unfold after
  split
  · split
    · exact turned_length ..
    · rfl
  · rfl

/-- What is shown is there. -/
theorem shown_lt {cfg : Cfg} {h : Heap} {rec : Nat → Rec} (hg : Good h rec) {t first : Nat} {on : Bool} {as nss : List Nat}
    (hc : Chain h (some first) (as ++ nss)) (hp : Parts h t as nss) {a b : Nat} {an ns ar : List Nat}
    (hs : (source cfg rec h t on as nss first).Shown a b an ns ar) : ∀ i ∈ an ++ ns ++ ar, i < h.length := by
  obtain ⟨hg', -⟩ := after_good (cfg := cfg) hg hc hp
  intro i hi
  rw [List.mem_append, List.mem_append] at hi
  rcases hi with (hi | hi) | hi
  · rw [hs.an] at hi
    obtain ⟨k, hk, hi⟩ := List.mem_flatMap.1 hi
    rcases List.mem_cons.1 hi with rfl | hi
    · exact hc.lt i (by have := List.mem_of_mem_take hk; simp only [List.mem_append]; exact .inl this)
    · exact aliases_lt hg hi
  · rw [hs.ns] at hi
    exact hc.lt i (by have := List.mem_of_mem_take hi; simp only [List.mem_append]; exact .inr this)
  · obtain ⟨k, -, g, hgm, hj⟩ := hs.from_ i hi
    change g ∈ groups cfg rec (if k ∈ as then h else _) k at hgm
    split at hgm
    · exact groups_lt hg hgm hj
    · rw [← after_length cfg t h as nss first]
      exact groups_lt hg' hgm hj

/-- The reply to a question, for any records: which records it has, what is sent, what becomes of the
records. -/
theorem udpsuccess_total {cfg : Cfg} {h : Heap} {rec : Nat → Rec} (hg : Good h rec) {first : Nat} {p : Node} (hf : h[first]? = some p)
    {qname : List (List UInt8)} (hq : NameOk qname) {t : Nat} (ht : t < 65536) {as nss : List Nat}
    (hc : Chain h (some first) (as ++ nss)) (hp : Parts h t as nss) (id : Nat) (rd force long : Bool) :
    ∃ a b an ns ar d, (source cfg rec h t (p.auth || decide (t ≠ 2 ∧ p.type = 2)) as nss first).Shown a b an ns ar ∧
      udpsuccess cfg h first id (encName qname ++ be16 t) rd force long = .ok d ∧
      ((1024 ≤ (msg rec id (force || p.auth) rd qname t an ns ar).bytes.length ∧ d.reply = serverFailure id rd ∧
          ((d.heap, d.head) = (h, first) ∨ (d.heap, d.head) = after cfg t h as nss first)) ∨
        ((msg rec id (force || p.auth) rd qname t an ns ar).bytes.length < 1024 ∧ (d.heap, d.head) = after cfg t h as nss first ∧
          (msg rec id (force || p.auth) rd qname t an ns ar).Sound ∧
          ∃ r, Sent (msg rec id (force || p.auth) rd qname t an ns ar) long r ∧ d.reply = r.getD (serverFailure id rd))) := by
  obtain ⟨a, b, hsh⟩ := shown (cfg := cfg) (on := p.auth || decide (t ≠ 2 ∧ p.type = 2)) hg hc hp
  have hqlen := hq.2
  let base : List UInt8 := makeHdr { id := id } ++ (encName qname ++ be16 t) ++ put16 1
  have hbase : base.length = 12 + ((encName qname).length + 2) + 2 := by
    simp only [base, List.length_append, makeHdr_length]; rfl
  obtain ⟨second, hsec, hsec'⟩ := second_eq hg hc hp hf
  have hroom : Room rec base {} := by
    unfold Room enc; simp; omega
  obtain ⟨s', w1, w2⟩ := walk_total (cfg := cfg) (rec := rec) (base := base) (t := t) (isAuth := p.auth) (deleg := decide (t ≠ 2 ∧ p.type = 2))
    (on := p.auth || decide (t ≠ 2 ∧ p.type = 2)) (first := first) (n := h.length + 1) (second := second)
    (s := { heap := h, head := first, most := base }) (as := as) (nss := nss) (by simp) hg hc hp
    (by have := hc.length_le hg; omega) hsec' rfl ⟨by simp [enc], by simp [enc], rfl, rfl, rfl, rfl, rfl, rfl⟩ hroom
  simp only at w2
  generalize sectA cfg rec (after cfg t h as nss first).1 t true (p.auth || decide (t ≠ 2 ∧ p.type = 2)) nss 0 (sectA cfg rec h t false true as 0 {}) = A at *
  refine ⟨a, b, A.an, A.ns, A.ar, ?_⟩
  have hbytes := msg_bytes rec id (force || p.auth) rd qname t A.an A.ns A.ar
  have hblen : (msg rec id (force || p.auth) rd qname t A.an A.ns A.ar).bytes.length = (base ++ enc rec A.an ++ enc rec A.ns).length + (enc rec A.ar).length := by
    rw [hbytes]
    simp only [List.length_append, makeHdr_length, hbase]
    simp [be16]
    omega
  have hsound : p.data.length ≤ 65535 := by
    have h1 := hg.holds first p hf
    rw [h1.data]
    have := h1.sound.ok.size
    omega
  have hstart : udpsuccess cfg h first id (encName qname ++ be16 t) rd force long =
      (if s'.bad = true then Res.ok ⟨servfail id rd, s'.heap, s'.head⟩
        else match append 1024 (makeHdr { id := id, qr := true, aa := force || p.auth, rd := rd, qd := 1, an := s'.an, ns := s'.ns, ar := s'.arc } ++ s'.most.drop 12) s'.ar with
          | none => Res.ok ⟨servfail id rd, s'.heap, s'.head⟩
          | some most => (fit most long).bind fun out =>
            match out with
            | none => Res.ok ⟨servfail id rd, s'.heap, s'.head⟩
            | some c => .ok ⟨c, s'.heap, s'.head⟩) := by
    unfold udpsuccess
    rw [show deref h first = .ok p by unfold deref; rw [hf]]
    rw [Res.ok_bind]
    have hk : Lookup.getRtype (encName qname ++ be16 t) = some t := Lookup.getRtype_key qname t ht
    rw [hk]
    simp only
    rw [if_neg (by omega)]
    have hap : append 1024 (makeHdr { id := id }) (encName qname ++ be16 t) = some (makeHdr { id := id } ++ (encName qname ++ be16 t)) := by
      unfold append
      rw [if_neg]
      rw [makeHdr_length]
      simp [be16]; omega
    rw [hap]
    simp only
    have hap2 : append 1024 (makeHdr { id := id } ++ (encName qname ++ be16 t)) (put16 1) = some base := by
      unfold append
      rw [if_neg]
      rw [List.length_append, makeHdr_length]
      simp [be16, put16]; omega
    rw [hap2]
    simp only
    rcases hsec with ⟨e1, e2⟩ | ⟨j, q, e1, e2, e3⟩
    · rw [e1]
      simp only
      rw [e2] at w1
      rw [Res.ok_bind, w1, Res.ok_bind]
      rfl
    · rw [e1]
      simp only
      rw [e2, Res.ok_bind, Res.ok_bind, ← e3, w1, Res.ok_bind]
      rfl
  rw [hstart]
  rcases w2 with ⟨hs, hr, hheap⟩ | ⟨hbad, hnr, hheap⟩
  · rw [if_neg (by rw [hs.ok]; simp)]
    have hmost : makeHdr { id := id, qr := true, aa := force || p.auth, rd := rd, qd := 1, an := s'.an, ns := s'.ns, ar := s'.arc } ++ s'.most.drop 12 =
        makeHdr { id := id, qr := true, aa := force || p.auth, rd := rd, qd := 1, an := A.an.length, ns := A.ns.length, ar := A.ar.length } ++
        (encName qname ++ be16 t ++ be16 1) ++ enc rec A.an ++ enc rec A.ns := by
      rw [hs.an, hs.ns, hs.arc, hs.most]
      have : base ++ enc rec A.an ++ enc rec A.ns = makeHdr { id := id } ++ ((encName qname ++ be16 t ++ be16 1) ++ enc rec A.an ++ enc rec A.ns) := by
        simp [base, put16_be16]
      rw [this, List.drop_left' (makeHdr_length _)]
      simp
    rw [hmost, hs.ar]
    have hlen : (makeHdr { id := id, qr := true, aa := force || p.auth, rd := rd, qd := 1, an := A.an.length, ns := A.ns.length, ar := A.ar.length } ++
        (encName qname ++ be16 t ++ be16 1) ++ enc rec A.an ++ enc rec A.ns).length + (enc rec A.ar).length =
        (msg rec id (force || p.auth) rd qname t A.an A.ns A.ar).bytes.length := by
      rw [hbytes, List.length_append (bs := enc rec A.ar)]
    unfold append
    rw [hlen, ← hbytes]
    by_cases hbig : (msg rec id (force || p.auth) rd qname t A.an A.ns A.ar).bytes.length ≥ 1024
    · rw [if_pos hbig]
      refine ⟨_, hsh, rfl, .inl ⟨hbig, servfail_eq id rd, .inr ?_⟩⟩
      exact hheap
    · rw [if_neg hbig]
      simp only
      have hA : ∀ l, l = A.an ∨ l = A.ns ∨ l = A.ar → (enc rec l).length < 1024 := by
        intro l hl
        rw [hblen] at hbig
        simp only [List.length_append] at hbig
        rcases hl with rfl | rfl | rfl <;> omega
      have places := shown_lt hg hc hp hsh
      have hm : (msg rec id (force || p.auth) rd qname t A.an A.ns A.ar).Sound := by
        refine ⟨(answerHead_ok _ _ _).1, hq, ht, by show (1 : Nat) < 65536; omega, ?_, ?_, ?_, ?_⟩
        · intro r hr'
          have : ∃ i ∈ A.an ++ A.ns ++ A.ar, rec i = r := by
            unfold Msg.all msg at hr'
            simp only [← List.map_append] at hr'
            exact List.mem_map.1 hr'
          obtain ⟨i, hi, rfl⟩ := this
          exact (hg.holds i _ (List.getElem?_eq_getElem (places i hi))).sound
        · have := enc_length rec A.an; have := hA A.an (by simp)
          simp only [msg, List.length_map]; omega
        · have := enc_length rec A.ns; have := hA A.ns (by simp)
          simp only [msg, List.length_map]; omega
        · have := enc_length rec A.ar; have := hA A.ar (by simp)
          simp only [msg, List.length_map]; omega
      obtain ⟨r, hr1, hr2⟩ := fit_sent hm (answerHead_ok _ _ _).2 (by omega) long
      rw [hr1]
      refine ⟨match r with | none => ⟨servfail id rd, s'.heap, s'.head⟩ | some c => ⟨c, s'.heap, s'.head⟩, hsh, ?_, .inr ⟨by omega, ?_, hm, r, hr2, ?_⟩⟩
      · cases r <;> rfl
      · cases r <;> exact hheap
      · cases r
        · exact servfail_eq id rd
        · rfl
  · rw [if_pos hbad]
    refine ⟨_, hsh, rfl, .inl ⟨?_, servfail_eq id rd, hheap⟩⟩
    unfold Room at hnr
    rw [hblen]
    omega

end Reply
end Mara
