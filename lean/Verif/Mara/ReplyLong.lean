import Verif.Mara.ReplyExamples
/-!
# C71, what goes wrong: more than 20 records

`max_total` may be set to any number, but only 20 records are taken out of a reply that is too long.
-/

namespace Mara
namespace Reply

open Spec
open Dw (Res)

theorem endsAt_lt {m : Mem} {i e : Nat} (h : EndsAt m i e) : i + 1 ≤ e := by
  induction h with
  | root _ => omega
  | pointer _ _ => omega
  | label _ _ ih => omega

theorem namesIn_le {m : Mem} {i k : Nat} {ns : List (List (List UInt8))} (h : NamesIn m i ns k) : i ≤ k := by
  induction h with
  | nil => omega
  | cons _ h _ ih => have := endsAt_lt h; omega

theorem recIn_size {m : Mem} {i e : Nat} {r : Rec} (h : RecIn m i r e) : i + 11 + r.tail.length ≤ e := by
  obtain ⟨a, k, -, h1, -, -, h2, -, h3, -, h4⟩ := h.at_
  have := endsAt_lt h1
  have := namesIn_le h3
  omega

theorem recsIn_size {m : Mem} {i e : Nat} {rs : List Rec} (h : RecsIn m i rs e) : i + (rs.map fun r => 11 + r.tail.length).sum ≤ e := by
  induction h with
  | nil => simp
  | @cons i e k r rs h1 _ ih =>
    have h5 := recIn_size h1
    simp only [List.map_cons, List.sum_cons]
    omega

theorem sameRecs_tails : ∀ {a b : List Rec}, SameRecs a b → a.map Rec.tail = b.map Rec.tail
  | [], [], _ => rfl
  | x :: a, y :: b, h => by
    rw [List.map_cons, List.map_cons, sameRecs_tails h.2, h.1.tail]

/-- A message takes at least 15 bytes for each address in it. -/
theorem carried_size {m : Msg} {c : List UInt8} (h : m.Carried c) (h4 : ∀ r ∈ m.ar, r.tail.length = 4) : 15 * m.ar.length ≤ c.length := by
  obtain ⟨p', hs, hi, -⟩ := h
  have e : p'.all.map Rec.tail = m.all.map Rec.tail := by
    unfold Msg.all
    simp only [List.map_append, sameRecs_tails hs.an, sameRecs_tails hs.ns, sameRecs_tails hs.ar]
  have h1 := recsIn_size hi.recs
  have e2 : (p'.all.map fun r => 11 + r.tail.length) = m.all.map fun r => 11 + r.tail.length := by
    have := congrArg (List.map fun t : List UInt8 => 11 + t.length) e
    simpa [List.map_map, Function.comp_def] using this
  rw [e2] at h1
  have h2 : ∀ l : List Rec, (∀ r ∈ l, r.tail.length = 4) → (l.map fun r => 11 + r.tail.length).sum = 15 * l.length := by
    intro l
    induction l with
    | nil => intro _; rfl
    | cons x l ih =>
      intro h
      have := h x (by simp)
      have := ih (fun r hr => h r (List.mem_cons_of_mem x hr))
      simp only [List.map_cons, List.sum_cons, List.length_cons]
      omega
  have h3 := h2 m.ar h4
  unfold Msg.all at h1
  simp only [List.map_append, List.sum_append] at h1
  omega

theorem labels_without (m : Msg) (k : Nat) : (m.without k).labels ≤ m.labels := by
  have hsum : ∀ (l : List Rec) (j : Nat) (f : Rec → Nat), ((l.take j).map f).sum ≤ (l.map f).sum := by
    intro l j f
    conv => rhs; rw [← List.take_append_drop j l]
    rw [List.map_append, List.sum_append]
    omega
  unfold Msg.labels Msg.all
  have e1 : (m.without k).an = m.an := rfl
  have e2 : (m.without k).ns = m.ns.take (m.optional - k) := rfl
  have e3 : (m.without k).ar = m.ar.take (m.ar.length - k) := rfl
  have e4 : (m.without k).qname = m.qname := rfl
  rw [e1, e2, e3, e4]
  simp only [List.map_append, List.sum_append]
  have := hsum m.ns (m.optional - k) (fun r => nameCount r.name + (r.names.map nameCount).sum)
  have := hsum m.ar (m.ar.length - k) (fun r => nameCount r.name + (r.names.map nameCount).sum)
  omega

/-- With 55 addresses, a reply to anybody has more than 512 bytes. -/
theorem sent_long {m : Msg} (hm : m.Sound) (hb : m.bytes.length < 1024) (hl : m.labels ≤ 150)
    (h4 : ∀ r ∈ m.ar, r.tail.length = 4) (hn : 55 ≤ m.ar.length) {r : Option (List UInt8)} (h2 : Sent m false r) :
    ∃ c, r = some c ∧ 512 < c.length ∧ (m.without 20).Carried c := by
  have big : ∀ k, k ≤ 20 → ∀ c, (m.without k).Carried c → 512 < c.length := by
    intro k hk c hc
    have h1 := carried_size hc (fun r hr => h4 r (List.mem_of_mem_take hr))
    rw [without_ar_length] at h1
    omega
  have nosmall : ∀ k, k ≤ 20 → ¬∃ c, Small (m.without k) c := by
    rintro k hk ⟨c, h1, h2⟩
    have := big k hk c (small_carried (without_sound hm k) (by have := bytes_without_le m k; omega) h1).1
    omega
  cases h2 with
  | @whole c s1 s2 s3 =>
    rcases s3 with ⟨s3, -⟩ | s3
    · have := big 0 (by omega) c (by rw [without_zero]; exact s1)
      omega
    · cases s3
  | @less c k _ _ s3 s4 s5 _ =>
    have := big k s3 c s4
    omega
  | cut s1 _ => unfold Msg.optional at s1; omega
  | much _ _ =>
    obtain ⟨c, p', k1, -⟩ := Comp.compress_carries (without_sound hm 20) (um := 1024) (om := 5000)
      (by have := bytes_without_le m 20; omega) (by have := bytes_without_le m 20; omega) (by have := bytes_without_le m 20; omega)
      (by have := labels_without m 20; omega)
    have hc : (m.without 20).Carried c := (small_carried (without_sound hm 20) (by have := bytes_without_le m 20; omega) k1).1
    refine ⟨c, ?_, big 20 (by omega) c hc, hc⟩
    unfold packed
    rw [k1]

/-- `a.` has a mail server that has 55 addresses. -/
def longRec (i : Nat) : Rec :=
  if i = 0 then ⟨[[97]], 15, [0, 1], 86400, [0, 10], [[[109]]], []⟩
  else ⟨[[109]], 1, [0, 1], 86400, [], [], [10, 0, 0, UInt8.ofNat i]⟩

def longNode (i : Nat) : Node where
  query := encName (longRec i).name ++ be16 (longRec i).type
  data := (longRec i).rdata
  ttl := (longRec i).ttl
  type := (longRec i).type
  auth := true
  next := if 1 ≤ i ∧ i < 55 then some (i + 1) else none
  ip := if i = 0 then some 1 else none

def longHeap : Heap := (List.range 56).map longNode

theorem longHeap_get {i : Nat} {p : Node} (h : longHeap[i]? = some p) : i < 56 ∧ p = longNode i := by
  have hi : i < 56 := by simpa [longHeap] using (List.getElem?_eq_some_iff.1 h).1
  refine ⟨hi, ?_⟩
  unfold longHeap at h
  rw [List.getElem?_map, List.getElem?_range hi] at h
  exact (Option.some.inj h).symm

theorem longHeap_at {i : Nat} (hi : i < 56) : longHeap[i]? = some (longNode i) := by
  unfold longHeap
  rw [List.getElem?_map, List.getElem?_range hi]
  rfl

theorem longRec_sound (i : Nat) : (longRec i).Sound := by
  have nm : ∀ n : List (List UInt8), decide ((∀ l ∈ n, 1 ≤ l.length ∧ l.length ≤ 63) ∧ (encName n).length ≤ 255) = true → NameOk n :=
    fun n h => (of_decide_eq_true h : (∀ l ∈ n, 1 ≤ l.length ∧ l.length ≤ 63) ∧ (encName n).length ≤ 255)
  unfold longRec
  split
  · refine ⟨⟨by decide, rfl, by decide, by decide, by decide⟩, nm _ (by decide), ?_, by decide, by decide, by intro h; exact absurd h (by decide)⟩
    intro n hn; rw [List.mem_singleton] at hn; rw [hn]; exact nm _ (by decide)
  · refine ⟨⟨?_, rfl, ?_, by simp [Rec.rdata], rfl⟩, nm [[109]] (by decide), ?_, ?_, fun _ => rfl, ?_⟩
    · show (1 : Nat) < 65536; decide
    · show (86400 : Nat) < 4294967296; decide
    · intro n hn; cases hn
    · show (86400 : Nat) ≠ 4294967295; decide
    · intro h; change (1 : Nat) = 16 at h; exact absurd h (by decide)

theorem longHeap_good : Good longHeap longRec where
  holds := by
    intro i p hp
    obtain ⟨hi, rfl⟩ := longHeap_get hp
    refine ⟨rfl, rfl, ?_, rfl, rfl, longRec_sound i⟩
    unfold longRec; split <;> rfl
  next := by
    intro i p j hp hn
    obtain ⟨hi, rfl⟩ := longHeap_get hp
    simp only [longNode] at hn
    split at hn
    · rename_i h
      cases hn
      refine ⟨_, longHeap_at (by omega), ?_, ?_⟩
      · intro h2
        simp only [longNode, longRec, if_neg (show ¬i = 0 by omega)] at h2
        omega
      · intro _
        simp only [longNode, longRec, if_neg (show ¬i = 0 by omega), if_neg (show ¬i + 1 = 0 by omega)]
    · cases hn
  ip := by
    intro i p j hp hn
    obtain ⟨hi, rfl⟩ := longHeap_get hp
    simp only [longNode] at hn
    split at hn <;> cases hn
    simp [longHeap]
  ip6 := by
    intro i p j hp hn
    obtain ⟨hi, rfl⟩ := longHeap_get hp
    cases hn
  list := by
    intro i p t j hp hn
    obtain ⟨hi, rfl⟩ := longHeap_get hp
    cases hn
  ends := by
    refine ⟨fun i => 100 - i, ?_⟩
    intro i p j hp hn
    obtain ⟨hi, rfl⟩ := longHeap_get hp
    simp only [longNode] at hn
    split at hn
    · cases hn; simp only; omega
    · cases hn

theorem longHeap_addrs : chainOf longHeap (some 1) = (List.range 55).map (· + 1) := by decide +kernel

theorem longRec_enc {i : Nat} (h : i ≠ 0) : (longRec i).toRR.enc.length = 17 := by
  unfold longRec
  rw [if_neg h]
  rfl

theorem longRecs_enc : ∀ (l : List Nat), (∀ i ∈ l, i ≠ 0) → (enc longRec l).length = 17 * l.length
  | [], _ => rfl
  | i :: l, h => by
    have : enc longRec (i :: l) = (longRec i).toRR.enc ++ enc longRec l := by unfold enc; simp
    rw [this, List.length_append, longRec_enc (h i (by simp)), longRecs_enc l (fun j hj => h j (List.mem_cons_of_mem i hj)), List.length_cons]
    omega

/-- **C71, what goes wrong.** With limits of 60 records, a question for the mail server of `a.` is
answered by more than 512 bytes over UDP, whoever asks. -/
theorem long_reply : ∃ d, udpsuccess { maxChain := 60, maxTotal := 60, maxAr := 60 } longHeap 0 7 (encName [[97]] ++ be16 15) true false false = .ok d ∧
    512 < d.reply.length := by
  have hq : NameOk [[97]] :=
    (by decide : (∀ l ∈ ([[97]] : List (List UInt8)), 1 ≤ l.length ∧ l.length ≤ 63) ∧ (encName [[97]]).length ≤ 255)
  have hc : Chain longHeap (some 0) ([0] ++ []) := .cons (longHeap_at (by omega)) .nil
  have hp : Parts longHeap 15 [0] [] := by
    refine .inr ⟨by decide, ?_, by intro i hi; cases hi⟩
    intro i hi p hp
    rw [List.mem_singleton] at hi
    subst hi
    obtain ⟨-, rfl⟩ := longHeap_get hp
    decide
  obtain ⟨a, b, an, ns, ar, d, h1, h2, h3⟩ := udpsuccess_total (cfg := { maxChain := 60, maxTotal := 60, maxAr := 60 }) longHeap_good
    (longHeap_at (i := 0) (by omega)) hq (t := 15) (by decide) hc hp 7 true false false
  refine ⟨d, h2, ?_⟩
  have hfew := h1.few
  change a ≤ 1 ∧ a ≤ 60 ∧ b ≤ 0 ∧ b ≤ 60 at hfew
  have hb : b = 0 := by omega
  subst hb
  -- the addresses
  have hhosts : (source { maxChain := 60, maxTotal := 60, maxAr := 60 } longRec longHeap 15
      ((longNode 0).auth || decide (15 ≠ 2 ∧ (longNode 0).type = 2)) [0] [] 0).hosts 0 = [(List.range 55).map (· + 1)] := by
    simp only [source]
    rw [if_pos (by simp)]
    unfold groups
    rw [longHeap_at (by omega)]
    simp only
    rw [if_neg (by decide)]
    simp only [Bool.false_eq_true, if_false]
    change [front longRec (chainOf longHeap (some 1))] = _
    rw [longHeap_addrs]
    decide +kernel
  have hnd : ar.Nodup := h1.once (by decide)
  have hin : ∀ j ∈ ar, j ∈ (List.range 55).map (· + 1) := by
    intro j hj
    obtain ⟨i, hi, g, hg, hjg⟩ := h1.from_ j hj
    have hi0 : i = 0 := by
      rcases List.mem_append.1 hi with hi | hi
      · have := List.mem_of_mem_take hi
        change i ∈ [0] at this
        simpa using this
      · have := List.mem_of_mem_take hi
        cases this
    subst hi0
    rw [hhosts, List.mem_singleton] at hg
    rw [← hg]
    exact hjg
  have hle : ar.length ≤ 55 := by
    have := (List.subperm_of_subset hnd hin).length_le
    simpa using this
  have ha : a = 1 := by
    rcases h1.answers with h | h | ⟨-, h⟩
    · exact h
    · change a = 60 at h; omega
    · change a + ar.length = 60 at h; omega
  subst ha
  have hall : ∀ j ∈ (List.range 55).map (· + 1), j ∈ ar := by
    have h0 : (List.range 55).map (· + 1) ∈ (source { maxChain := 60, maxTotal := 60, maxAr := 60 } longRec longHeap 15
      ((longNode 0).auth || decide (15 ≠ 2 ∧ (longNode 0).type = 2)) [0] [] 0).hosts 0 := by
      rw [hhosts]; simp
    rcases h1.each 0 (List.mem_append_left _ (by change 0 ∈ List.take 1 [0]; simp)) _ h0 with h | h | h
    · exact h
    · exfalso
      change 60 ≤ _ at h
      have := List.countP_le_length (p := fun x => decide (x ∈ ar)) (l := (List.range 55).map (· + 1))
      rw [List.length_map, List.length_range] at this
      omega
    · change 1 + 0 + ar.length = 60 at h; omega
  have hge : 55 ≤ ar.length := by
    have := (List.subperm_of_subset (by decide +kernel : ((List.range 55).map (· + 1)).Nodup) hall).length_le
    simpa using this
  have han : an = [0] := by
    rw [h1.an]; decide +kernel
  have hns : ns = [] := by rw [h1.ns]; rfl
  subst han
  subst hns
  have hne : ∀ i ∈ ar, i ≠ 0 := by
    intro i hi
    obtain ⟨k, -, hk⟩ := List.mem_map.1 (hin i hi)
    omega
  have hbytes : (msg longRec 7 (false || (longNode 0).auth) true [[97]] 15 [0] [] ar).bytes.length < 1024 := by
    rw [msg_bytes]
    simp only [List.length_append, makeHdr_length]
    rw [longRecs_enc ar hne]
    have e1 : (enc longRec [0]).length = 18 := by decide +kernel
    have e2 : (enc longRec []).length = 0 := rfl
    have e3 : (encName [[97]]).length = 3 := by decide
    rw [e1, e2, e3]
    simp only [be16, List.length_cons, List.length_nil]
    omega
  rcases h3 with ⟨h, -⟩ | ⟨-, -, hs, r, hr, hd⟩
  · omega
  · have hlab : (msg longRec 7 (false || (longNode 0).auth) true [[97]] 15 [0] [] ar).labels ≤ 150 := by
      have hsum : ∀ l : List Nat, (∀ i ∈ l, i ≠ 0) → ((l.map longRec).map fun r => nameCount r.name + (r.names.map nameCount).sum).sum = 2 * l.length := by
        intro l
        induction l with
        | nil => intro _; rfl
        | cons x l ih =>
          intro h
          have hx := h x (by simp)
          rw [List.map_cons, List.map_cons, List.sum_cons, ih (fun j hj => h j (List.mem_cons_of_mem x hj)), List.length_cons]
          have : nameCount (longRec x).name + ((longRec x).names.map nameCount).sum = 2 := by
            unfold longRec; rw [if_neg hx]; rfl
          omega
      unfold Msg.labels Msg.all msg
      simp only [List.map_append, List.sum_append]
      rw [hsum ar hne]
      have e1 : (List.map (fun r : Rec => nameCount r.name + (List.map nameCount r.names).sum) (List.map longRec [0])).sum = 4 := by decide +kernel
      have e2 : nameCount ([[97]] : List (List UInt8)) = 2 := rfl
      rw [e1, e2]
      simp only [List.map_nil, List.sum_nil]
      omega
    obtain ⟨c, hc1, hc2, -⟩ := sent_long hs hbytes hlab (by
      intro x hx
      obtain ⟨i, hi, rfl⟩ := List.mem_map.1 hx
      unfold longRec
      rw [if_neg (hne i hi)]
      rfl) (by
      show 55 ≤ (ar.map longRec).length
      rw [List.length_map]; exact hge) hr
    rw [hd, hc1]
    exact hc2

/-- `w.` has a text of 1000 bytes. -/
def bigHeap : Heap := [{ query := encName [[119]] ++ be16 16, data := 3 :: List.replicate 999 65, ttl := 60, type := 16, auth := true }]

/-- **C71, what goes wrong.** An answer of 1024 bytes or more is not cut short (so that the client would
ask again over TCP): the server says that it has failed. -/
theorem big_answer_fails : udpsuccess {} bigHeap 0 7 (encName [[119]] ++ be16 16) true false true =
    .ok ⟨serverFailure 7 true, bigHeap, 0⟩ := by decide +kernel

end Reply
end Mara
