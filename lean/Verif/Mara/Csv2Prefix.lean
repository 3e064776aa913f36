import Verif.Mara.Csv2Props
/-!
# Properties: mistakes in zone files

What has been read stays; the first mistake ends the reading.
-/

namespace Mara
namespace Csv2

open Dw (Res)
open Spec (LabelsOk encName dotted lower Name ascii ZoneLine Host)
open Spec.ZoneText

/-- An outcome with records before it. -/
def Outcome.after (l : List Entry) (o : Outcome) : Outcome := l.foldr Outcome.cons o

/-- The same for what comes of the rest of a file. -/
def behind (l : List Entry) : Res Outcome → Res Outcome
  | .ok o => .ok (o.after l)
  | .err => .err
  | .ub => .ub

theorem behind_nil (r : Res Outcome) : behind [] r = r := by cases r <;> rfl

theorem behind_cons (e : Entry) (l : List Entry) (r : Res Outcome) : behind (e :: l) r =
    match behind l r with
    | .ub => .ub
    | .err => .err
    | .ok o => .ok (o.cons e) := by cases r <;> rfl

/-- The lines of a file, and anything after them. -/
theorem lines_then (files : List UInt8 → Option (List UInt8)) (serial : Nat) (hser : serial < 2 ^ 32) (tilde : Bool) (tail : List UInt8) :
    ∀ (l : List (Line × Sep)) (p : Ps) (ctx : Ctx) (k m fuel left : Nat) (s0 : Stream), LinesOk serial tilde ctx l → PsOk p ctx serial k →
      Style m tilde → (∀ x r, l = x :: r → x.1.isFree = true → m ≠ 102) → k + l.countP (fun x => x.1.isPush) ≤ 8 → l.length < fuel →
      l.countP (fun x => x.1.isRecord) < left → (l ≠ [] → Ready m ((l.flatMap fun x => x.1.text ++ x.2.text) ++ tail) s0) →
      ∃ fuel' left' p' s', 0 < fuel' ∧ 0 < left' ∧
        parse files fuel left p s0 = behind ((entries serial ctx l).map toEntry) (parse files fuel' left' p' s') ∧
        ∀ y, l.getLast? = some y → ∃ m', Style m' tilde ∧ Left m' y.2 tail s' := by
  intro l
  induction l with
  | nil =>
    intro p ctx k m fuel left s0 _ _ _ _ _ hfu hle hr
    exact ⟨fuel, left, p, s0, by simp at hfu; omega, by simp at hle; omega, (behind_nil _).symm, fun y hy => by cases hy⟩
  | cons x r ihr =>
    intro p ctx k m fuel left s0 hok hp hst hfree hk hfu hle hr
    obtain ⟨l, sep⟩ := x
    obtain ⟨fuel, rfl⟩ : ∃ f, fuel = f + 1 := ⟨fuel - 1, by simp at hfu; omega⟩
    obtain ⟨left, rfl⟩ : ∃ f, left = f + 1 := ⟨left - 1, by omega⟩
    obtain ⟨h1, h2, h3, h4, h5, h6⟩ := hok
    subst h3
    simp only [List.countP_cons, List.length_cons] at hk hfu hle
    have hm2 : m ≠ 2 := by
      unfold Style at hst
      split_ifs at hst <;> omega
    have h103 : m = 103 → sep.tilde = true := by
      intro h
      unfold Style at hst
      split_ifs at hst with ht
      · exact ht
      · omega
    have hr' : Ready m (l.text ++ (sep.text ++ ((r.flatMap fun x => x.1.text ++ x.2.text) ++ tail))) s0 := by
      simpa [List.flatMap_cons] using hr (by simp)
    have hk1 : k + (if l.isPush then 1 else 0) ≤ 8 := by
      split_ifs at hk ⊢ <;> omega
    obtain ⟨s1, hleft, hres⟩ := line_run files hp hser h1 h2 h5 (fun h => ⟨hm2, hfree _ _ rfl h⟩) h103 hk1 hr'
    have hready : r ≠ [] → Ready (nextMode m sep.tilde) ((r.flatMap fun x => x.1.text ++ x.2.text) ++ tail) s1 :=
      fun h => left_ready hleft h2 (fun _ => h4 h) hst
    have hfin : ∀ s', (∀ y, r.getLast? = some y → ∃ m', Style m' sep.tilde ∧ Left m' y.2 tail s') → (r = [] → s' = s1) →
        ∀ y, ((l, sep) :: r).getLast? = some y → ∃ m', Style m' sep.tilde ∧ Left m' y.2 tail s' := by
      intro s' g1 g2 y hy
      cases r with
      | nil =>
        cases hy
        rw [g2 rfl]
        exact ⟨m, hst, hleft⟩
      | cons a b => exact g1 y (by simpa [List.getLast?_cons_cons] using hy)
    rcases hres with ⟨hrec, hctx, e, he, hrr⟩ | ⟨hrec, he, p', hp', hrr⟩
    · have hpush : l.isPush = false := by cases l <;> first | rfl | cases hrec
      rw [hctx] at h6
      rw [parse, hrr]
      dsimp only
      rw [entries, he, hctx]
      show ∃ fuel' left' p' s', 0 < fuel' ∧ 0 < left' ∧ _ = behind (toEntry e :: (entries serial ctx r).map toEntry) _ ∧ _
      cases r with
      | nil =>
        refine ⟨fuel, left, p, s1, by omega, by rw [hrec] at hle; simp at hle; omega, ?_, hfin s1 (fun y hy => by cases hy) fun _ => rfl⟩
        rw [behind_cons]
        rw [show (entries serial ctx []).map toEntry = [] from rfl, behind_nil]
        generalize parse files fuel left p s1 = q
        cases q <;> rfl
      | cons a b =>
        obtain ⟨fuel', left', p', s', g1, g2, g3, g4⟩ := ihr p ctx k (nextMode m sep.tilde) fuel left s1 h6 hp (style_next hst)
          (fun _ _ _ _ => (nextMode_ne _ _).2) (by simpa [hpush] using hk) (by omega) (by rw [hrec] at hle; simpa using hle) hready
        refine ⟨fuel', left', p', s', g1, g2, ?_, hfin s' g4 (fun h => by cases h)⟩
        rw [behind_cons, ← g3]
        generalize parse files fuel left p s1 = q
        cases q <;> rfl
    · rw [parse, hrr]
      rw [entries, he]
      show ∃ fuel' left' p'' s', 0 < fuel' ∧ 0 < left' ∧ parse files fuel (left + 1) p' s1 =
        behind ((entries serial (step serial ctx l).1 r).map toEntry) _ ∧ _
      cases r with
      | nil =>
        exact ⟨fuel, left + 1, p', s1, by omega, by omega, (behind_nil _).symm, hfin s1 (fun y hy => by cases hy) fun _ => rfl⟩
      | cons a b =>
        obtain ⟨fuel', left', p'', s', g1, g2, g3, g4⟩ := ihr p' (step serial ctx l).1 (k + (if l.isPush then 1 else 0)) (nextMode m sep.tilde) fuel
          (left + 1) s1 h6 hp' (style_next hst) (fun _ _ _ _ => (nextMode_ne _ _).2) (by omega) (by omega)
          (by rw [hrec] at hle; simpa using hle) hready
        exact ⟨fuel', left', p'', s', g1, g2, g3, hfin s' g4 (fun h => by cases h)⟩

theorem text_then (files : List UInt8 → Option (List UInt8)) {mode serial : Nat} {zone : Name} (hz : OriginOk zone) (hser : serial < 2 ^ 32)
    {f : File} (hf : f.Ok mode serial zone) (tail : List UInt8) :
    ∃ fuel' left' p' s', 0 < fuel' ∧ 0 < left' ∧ readText files mode serial (dotted zone) (f.text ++ tail) =
      behind ((f.records serial zone).map toEntry) (parse files fuel' left' p' s') ∧
      ∀ y, f.lines.getLast? = some y → ∃ m', Style m' f.tilde ∧ Left m' y.2 tail s' := by
  have hmode : mode ≤ 3 := by
    have := hf.style
    split_ifs at this <;> omega
  have hst : Style (firstMode mode) f.tilde := by
    have := hf.style
    unfold Style firstMode
    split_ifs at this ⊢ <;> omega
  have hst2 := start_ready mode hmode f.head hf.head hf.pipes hf.short hf.line ((f.lines.flatMap fun x => x.1.text ++ x.2.text) ++ tail)
  have he : f.text ++ tail = pieces f.head ++ ((f.lines.flatMap fun x => x.1.text ++ x.2.text) ++ tail) := by
    rw [← List.append_assoc]
    rfl
  rw [readText, he]
  refine lines_then files serial hser f.tilde tail f.lines _ _ 0 (firstMode mode) _ _ _ hf.lines
    ⟨rfl, rfl, rfl, rfl, rfl, Nat.le_refl _, hz, fun _ h => (by cases h)⟩ hst ?_ (by have := hf.pushes; omega) ?_ hf.few (fun _ => hst2)
  · intro x r hx hfree h102
    have h2 : mode = 2 := by
      unfold firstMode at h102
      split_ifs at h102
      omega
    rw [hf.first h2 x (by rw [hx]; rfl)] at hfree
    cases hfree
  · have := lines_length hf.lines
    rw [List.length_append, List.length_append]
    omega

theorem after_read : ∀ (l : List Entry) {o : Outcome} {l' : List Entry}, o.after l = .read l' → l <+: l'
  | [], _, _, _ => List.nil_prefix
  | e :: l, o, l', h => by
    change Outcome.cons e (o.after l) = _ at h
    cases ho : o.after l with
    | read x =>
      rw [ho] at h
      cases h
      exact (List.prefix_cons_inj e).mpr (after_read l ho)
    | partly x => rw [ho] at h; cases h
    | other => rw [ho] at h; cases h
    | more => rw [ho] at h; cases h

theorem after_partly : ∀ (l : List Entry) {o : Outcome} {l' : List Entry}, o.after l = .partly l' → l <+: l'
  | [], _, _, _ => List.nil_prefix
  | e :: l, o, l', h => by
    change Outcome.cons e (o.after l) = _ at h
    cases ho : o.after l with
    | partly x =>
      rw [ho] at h
      cases h
      exact (List.prefix_cons_inj e).mpr (after_partly l ho)
    | read x => rw [ho] at h; cases h
    | other => rw [ho] at h; cases h
    | more => rw [ho] at h; cases h

/-- **C77.** Whatever comes after the good lines of a file, what these say is among what is read, and comes first. -/
theorem prefix_kept (files : List UInt8 → Option (List UInt8)) {mode serial : Nat} {zone : Name} (hz : OriginOk zone) (hser : serial < 2 ^ 32)
    {f : File} (hf : f.Ok mode serial zone) (tail : List UInt8) {l : List Entry}
    (h : readText files mode serial (dotted zone) (f.text ++ tail) = .ok (.read l) ∨
      readText files mode serial (dotted zone) (f.text ++ tail) = .ok (.partly l)) : (f.records serial zone).map toEntry <+: l := by
  obtain ⟨fuel', left', p', s', -, -, e, -⟩ := text_then files hz hser hf tail
  rw [e] at h
  cases hr : parse files fuel' left' p' s' with
  | ub => rw [hr] at h; rcases h with h | h <;> cases h
  | err => rw [hr] at h; rcases h with h | h <;> cases h
  | ok o =>
    rw [hr] at h
    rcases h with h | h
    · exact after_read _ (Res.ok.inj h)
    · exact after_partly _ (Res.ok.inj h)

/-- Bytes that cannot begin a line. -/
def Wrong (c : UInt8) : Prop := c.toNat < 128 ∧ isStarOrSlash c.toNat = false ∧ isDelim c.toNat = false ∧ c ≠ 35 ∧ c ≠ 46 ∧ c ≠ 123 ∧ c ≠ 126

instance (c : UInt8) : Decidable (Wrong c) := by
  unfold Wrong
  infer_instance

theorem firstLoop_wrong {s : Stream} (h : Plain s) (n : Nat) (last0 : Int) (pipe : Bool) (j c : UInt8) (t : List UInt8) (hc : Wrong c) :
    firstLoop isStarOrSlash 1 (n + 1) last0 pipe (s.here j (c :: t)) = .ok (some (-164), { s.here c t with isOpen := false }) := by
  obtain ⟨h1, h2, h3, h4, h5, h6, h7⟩ := hc
  have h124 : ¬ ((c.toNat : Int) = 124) := by
    intro e
    rw [e] at h3
    cases h3
  have h126 : ¬ ((c.toNat : Int) = 126) := ne_int 126 (by decide) h7
  have h46 : ¬ ((c.toNat : Int) = 46) := ne_int 46 (by decide) h5
  rw [firstLoop, bind_ok (readUnicode_here h j c t h6 h7 h1), bind_get, if_neg (by omega), if_neg (by omega), if_neg (ne35 h4), if_neg (by simp),
    if_neg (by simp [h2]), if_neg (by simp [h2]), if_neg (by simp [h46]), if_neg h124, if_neg (by simp [h126]), if_pos h3]
  rfl

/-- After a line, a byte that cannot begin one. -/
theorem left_wrong {m : Nat} {sep : Sep} {c : UInt8} {t : List UInt8} {s1 : Stream} (h : Left m sep (c :: t) s1) (hsep : sep.Ok) (hst : Style m sep.tilde)
    (hc : Wrong c) : ∃ s2 : Stream, get1st isStarOrSlash 1 s1 = .ok (some (-164), { s2 with isOpen := false }) := by
  obtain ⟨s, hs, hm, h⟩ := h
  have hshort := hsep.short
  have hpipes := hsep.pipes
  have hpipes : sep.before.countP Piece.isPipe + sep.after.countP Piece.isPipe + sep.first.isPipe.toNat ≤ 1 := by
    rw [List.countP_cons, List.countP_append] at hpipes
    cases hpp : sep.first.isPipe <;> simpa [hpp] using hpipes
  have hgo : ∀ (s : Stream), Plain s → ∀ (l : List Piece), (∀ p ∈ l, p.Ok) → ∀ (n : Nat), l.length < n → ∀ (last0 : Int) (pipe : Bool),
      l.countP Piece.isPipe + pipe.toNat ≤ 1 → ∀ j, ∃ s2 : Stream, firstLoop isStarOrSlash 1 n last0 pipe (s.here j (pieces l ++ c :: t)) =
        .ok (some (-164), { s2 with isOpen := false }) := by
    intro s hs l hl n hn last0 pipe hp j
    obtain ⟨k, rfl⟩ : ∃ k, n = k + 1 + l.length := ⟨n - 1 - l.length, by omega⟩
    obtain ⟨last1, pipe1, j1, e, -⟩ := firstLoop_pieces hs skips_starOrSlash 1 l (k + 1) last0 pipe j (c :: t) hl hp
    exact ⟨_, e.trans (firstLoop_wrong hs k last1 pipe1 j1 c t hc)⟩
  rcases h with rfl | ⟨h103, htl, rfl⟩
  · have hd := last_delim hsep.first
    have hd1 : isDelim (last sep.first).toNat = true := by rcases hd with h | h | h | h | h <;> rw [h] <;> decide
    have hlt : (last sep.first).toNat < 128 := by rcases hd with h | h | h | h | h <;> rw [h] <;> decide
    have h46 : ¬ (((last sep.first).toNat : Int) = 46) := by rcases hd with h | h | h | h | h <;> rw [h] <;> decide
    have h126 : ¬ (((last sep.first).toNat : Int) = 126) := by rcases hd with h | h | h | h | h <;> rw [h] <;> decide
    have hpf : decide (((last sep.first).toNat : Int) = 124) = sep.first.isPipe := by
      have hf := hsep.first
      cases hx : sep.first with
      | blank c => rw [hx] at hf; rcases hf with rfl | rfl | rfl | rfl <;> decide
      | pipe => decide
      | comment t e => rw [hx] at hf; rcases hf.1 with rfl | rfl <;> simp [last, Piece.isPipe]
    rw [get1st_open (just_here hs _ _) (by omega) (by rcases hd with h | h | h | h | h <;> rw [h] <;> decide) h46 (Or.inr (Or.inl hd1)), hpf,
      if_neg h126]
    show ∃ s2 : Stream, firstLoop isStarOrSlash 1 10000 (last sep.first).toNat sep.first.isPipe ((s.opening 0).here (last sep.first) (sepRest sep (c :: t))) = _
    have hp0 := opening_plain hs (k := 0) (by decide)
    cases htl : sep.tilde with
    | false =>
      have ha := hsep.none htl
      have er : sepRest sep (c :: t) = pieces sep.before ++ c :: t := by simp [sepRest, htl, ha, pieces]
      rw [er]
      exact hgo _ hp0 sep.before hsep.before 10000 (by omega) _ _ (by omega) _
    | true =>
      rw [htl] at hst
      have er : sepRest sep (c :: t) = pieces sep.before ++ 126 :: (pieces sep.after ++ c :: t) := by simp [sepRest, htl]
      have hm2 : s.mode = 102 ∨ s.mode = 103 := by
        rw [hm]
        simpa [Style] using hst
      have htk : (s.opening 0).tildeOk = true := by
        show (if s.mode = 101 then false else if s.mode = 102 ∨ s.mode = 103 then true else s.tildeOk) = true
        rw [if_neg (by omega), if_pos hm2]
      obtain ⟨last1, pipe1, j1, e1, -, -, f3, -⟩ := firstLoop_pieces hp0 skips_starOrSlash 1 sep.before (10000 - sep.before.length)
        (last sep.first).toNat sep.first.isPipe (last sep.first) (126 :: (pieces sep.after ++ c :: t)) hsep.before (by omega)
      rw [show 10000 - sep.before.length + sep.before.length = 10000 by omega] at e1
      have e2 := firstLoop_tilde hp0 htk (by show s.mode > 100; omega) (9999 - sep.before.length) last1 pipe1 j1 (pieces sep.after ++ c :: t)
      rw [show 9999 - sep.before.length + 1 = 10000 - sep.before.length by omega] at e2
      rw [er, e1, e2]
      exact hgo _ (tilde_plain hp0 (by show (0 : Int) ≤ 5; decide)) sep.after hsep.after _ (by omega) _ _ (by omega) _
  · have hj : (s.here 126 (pieces sep.after ++ c :: t)).just = 126 := just_here hs 126 _
    have hmm : (s.here 126 (pieces sep.after ++ c :: t)).mode = 103 := by rw [← h103, ← hm]; rfl
    rw [get1st_open hj (by decide) (by decide) (by decide) (Or.inr (Or.inr ⟨rfl, hmm⟩)), if_pos (by trivial)]
    exact hgo _ (opening_plain hs (by decide)) sep.after hsep.after 10000 (by omega) _ _ (by simp; omega) 126

theorem record_closed (p : Ps) (s : Stream) : ∃ s', record p { s with isOpen := false } = .ok (none, s') := by
  have h1 : process1st isStarOrDot [90] { s with isOpen := false } = .ok (none, { s with isOpen := false }) := rfl
  exact ⟨{ s with isOpen := false }, rfl⟩

/-- **C77.** The first mistake ends the reading: if a line begins with a byte that cannot begin one (such as `;`, `$`, `@`
and `(`), what the lines before it say has been read, and nothing of the rest of the file. -/
theorem mistake_ends (files : List UInt8 → Option (List UInt8)) {mode serial : Nat} {zone : Name} (hz : OriginOk zone) (hser : serial < 2 ^ 32)
    {f : File} (hf : f.Ok mode serial zone) (hne : f.lines ≠ []) {c : UInt8} (hc : Wrong c) (t : List UInt8) :
    readText files mode serial (dotted zone) (f.text ++ c :: t) = .ok (.partly ((f.records serial zone).map toEntry)) := by
  obtain ⟨fuel', left', p', s', h1, h2, e, h3⟩ := text_then files hz hser hf (c :: t)
  obtain ⟨y, hy⟩ : ∃ y, f.lines.getLast? = some y := by
    rw [← Option.isSome_iff_exists, List.getLast?_isSome]
    exact hne
  obtain ⟨m', hst, hleft⟩ := h3 y hy
  have hmem : y ∈ f.lines := List.mem_of_getLast? hy
  have hsep : ∀ {l : List (Line × Sep)} {ctx : Ctx}, LinesOk serial f.tilde ctx l → y ∈ l → y.2.Ok ∧ y.2.tilde = f.tilde := by
    intro l
    induction l with
    | nil => intro _ _ h; cases h
    | cons x r ih =>
      intro ctx hok hm
      rcases List.mem_cons.mp hm with rfl | hm
      · exact ⟨hok.2.1, hok.2.2.1⟩
      · exact ih hok.2.2.2.2.2 hm
  obtain ⟨hok, htl⟩ := hsep hf.lines hmem
  obtain ⟨s2, hg⟩ := left_wrong hleft hok (by rw [htl]; exact hst) hc
  obtain ⟨s3, hr⟩ := record_closed p' s2
  obtain ⟨fuel', rfl⟩ : ∃ f, fuel' = f + 1 := ⟨fuel' - 1, by omega⟩
  obtain ⟨left', rfl⟩ : ∃ f, left' = f + 1 := ⟨left' - 1, by omega⟩
  have hp : parse files (fuel' + 1) (left' + 1) p' s' = .ok (.partly []) := by
    rw [parse, readRr, hg]
    simp only [show ¬ ((-164 : Int) = -2) by decide, show ¬ ((-164 : Int) = -1) by decide, if_false]
    rw [if_neg (by show ¬ ((-1 : Int) = 47); decide), hr]
  rw [e, hp]
  show Res.ok (Outcome.after _ _) = _
  congr 1
  generalize (f.records serial zone).map toEntry = l
  induction l with
  | nil => rfl
  | cons a l ih =>
    show Outcome.cons a (Outcome.after l _) = _
    rw [ih]
    rfl

-- a comment in the style of BIND
example : readText (fun _ => none) 2 1 (ascii "example.com.") (exFile.text ++ ascii ";; more hosts\nother.% 10.0.0.2 ~\n") =
    .ok (.partly ((exFile.records 1 exZone).map toEntry)) :=
  mistake_ends (c := 59) _ exZone_ok (by decide) exFile_ok (by decide) (by decide) (ascii "; more hosts\nother.% 10.0.0.2 ~\n")

example : ∃ l, readText (fun _ => none) 2 1 (ascii "example.com.") (exFile.text ++ ascii "other.% 10.0.0.2 ~\n") = .ok (.read l) ∧
    (exFile.records 1 exZone).map toEntry <+: l := by
  have h : readText (fun _ => none) 2 1 (ascii "example.com.") (exFile.text ++ ascii "other.% 10.0.0.2 ~\n") =
    .ok (.read ((exFile.records 1 exZone).map toEntry ++ [⟨encName (ascii "other" :: exZone), 1, 60, some [10, 0, 0, 2]⟩])) := by decide +kernel
  exact ⟨_, h, prefix_kept (fun _ => none) exZone_ok (by decide) exFile_ok _ (Or.inl h)⟩

end Csv2
end Mara
