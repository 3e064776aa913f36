import Verif.Mara.RcProps

/-!
# The configuration file: findings and examples
-/

namespace Mara.Rc

open Spec.MaraRc

/-- Finding: an entry of a dictionary whose name is misspelt is dropped without a word, though a
variable whose name is misspelt stops the program. -/
theorem misspelt_dictionary_ignored (s : Settings) (num : Nat) (y : Layout) (hy : y.Ok)
    (n k v : List UInt8) (a : Bool) (hx : (Stmt.entry n k v a).Ok)
    (hlen : ((Stmt.entry n k v a).line y).length < 256) (he : n ≠ b "ERROR")
    (hn : n ∉ dkeywords) :
    oneLine ⟨held s, none⟩ num ((Stmt.entry n k v a).line y) = .go ⟨held s, none⟩ := by
  rw [one_stmt s num y hy _ hx hlen (by simpa [name?] using he)]
  simp [Stmt.does, known, hn]

/-- Finding: what is added to a value with `+=` is dropped without a word where the value would
become longer than 255 bytes. -/
theorem long_addition_dropped (s : Settings) (num : Nat) (y : Layout) (hy : y.Ok)
    (n v : List UInt8) (hx : (Stmt.text n v true).Ok)
    (hlen : ((Stmt.text n v true).line y).length < 256) (he : n ≠ b "ERROR")
    (hn : n ∈ keywords) (hc : canAdd (s.value n) = true)
    (hl : 255 < (s.value n).length + v.length) :
    oneLine ⟨held s, none⟩ num ((Stmt.text n v true).line y) = .go ⟨held s, none⟩ := by
  rw [one_stmt s num y hy _ hx hlen (by simpa [name?] using he)]
  simp only [Stmt.does, if_neg (show ¬ n ∉ known.vars from not_not.2 hn), hc, if_true, added,
    if_neg (show ¬ (s.value n).length + v.length ≤ 255 by omega), Function.update_eq_self]

/-- The layout of the examples. -/
def exLayout : Layout := ⟨[], [32], [32], [], none⟩

/-- A small file. -/
def exFile : List (Layout × Stmt) :=
  [(⟨[], [], [], [], some (b " a server")⟩, .note),
   (exLayout, .dict (b "csv2")),
   (exLayout, .entry (b "csv2") (b "Example.com.") (b "db.example") false),
   (⟨[32], [9], [], [32], some (b " see = {below}]")⟩,
     .text (b "ipv4_bind_addresses") (b "127.0.0.1") false),
   (exLayout, .text (b "ipv4_bind_addresses") (b ", 10.0.0.1 #2") true),
   (exLayout, .number (b "maradns_uid") (b "99") false)]

theorem exFile_ok : ∀ x ∈ exFile, x.1.Ok ∧ x.2.Ok ∧ (x.2.line x.1).length < 256 ∧
    name? x.2 ≠ some (b "ERROR") := by
  intro x hx
  simp only [exFile, List.mem_cons, List.not_mem_nil, or_false] at hx
  rcases hx with rfl | rfl | rfl | rfl | rfl | rfl <;>
    (refine ⟨?_, ?_, ?_, ?_⟩ <;> simp only [Layout.Ok, Stmt.Ok, exLayout] <;> decide +kernel)

/-- The file as it is written. -/
example : exFile.map (fun x => x.2.line x.1) =
    [b "# a server\n", b "csv2 = {}\n", b "csv2[\"Example.com.\"] = \"db.example\"\n",
     b " ipv4_bind_addresses\t=\"127.0.0.1\" # see = {below}]\n",
     b "ipv4_bind_addresses += \", 10.0.0.1 #2\"\n", b "maradns_uid = 99\n"] := by
  decide +kernel

theorem exFile_some : (meaning known Settings.none (exFile.map Prod.snd)).isSome = true := by
  decide +kernel

/-- What it sets. -/
example : ∃ s : Settings, readMararc (exFile.map fun x => x.2.line x.1) =
      .go ⟨⟨s.value, s.entries⟩, none⟩ ∧
    s.value (b "ipv4_bind_addresses") = b "127.0.0.1, 10.0.0.1 #2" ∧
    s.value (b "maradns_uid") = b "99" ∧ s.value (b "chroot_dir") = [] ∧
    (s.entries (b "csv2")).map (fun f => f (b "example.com.")) = some (some (b "db.example")) ∧
    (s.entries (b "csv1")).isNone = true := by
  have h := readMararc_exact exFile exFile_ok
  obtain ⟨s, hs⟩ := Option.isSome_iff_exists.1 exFile_some
  have e : s = (meaning known Settings.none (exFile.map Prod.snd)).get exFile_some := by
    simp [hs]
  rw [hs] at h
  refine ⟨s, h, ?_⟩
  rw [e]
  decide +kernel

/-- Twice the same entry: the program does not start. -/
example : readMararc [b "csv2 = {}\n", b "csv2[\"a.\"] = \"x\"\n", b "csv2[\"A.\"] = \"y\"\n"] =
    .exit :=
  readMararc_exact [(exLayout, .dict (b "csv2")), (exLayout, .entry (b "csv2") (b "a.") (b "x") false),
    (exLayout, .entry (b "csv2") (b "A.") (b "y") false)] (by
      intro x hx
      simp only [List.mem_cons, List.not_mem_nil, or_false] at hx
      rcases hx with rfl | rfl | rfl <;>
        (refine ⟨?_, ?_, ?_, ?_⟩ <;> simp only [Layout.Ok, Stmt.Ok, exLayout] <;>
          decide +kernel))

/-- A misspelt name. -/
example : parseline (b "cvs2[\"a.\"] = \"x\"\n") = .line 2 (b "cvs2") (b "a.") (b "x") false ∧
    b "cvs2" ∉ dkeywords := by decide +kernel

/-- `parseline_safe` is about odd lines, too. -/
example : parseline (b "[[==\"\"++{") = .bad .plusForm ∧
    parseline (b "x") = .bad .plusOnce ∧ parseline [200, 61, 0] = .bad .unknownChar := by
  decide +kernel

/-- `parseline_within`. -/
example : parseline (b "a=\"b=c\"d\n") = .bad .unexpectedChar ∧
    parseline (b "a=\"b=c\" #d\n") = .line 1 (b "a") (b "NOTHASH") (b "b=c") false := by
  decide +kernel

/-- `error_first`: the second line is wrong, and the third counts no more. -/
example : ∃ r r', readMararc [b "dns_port = 53\n"] = .go r ∧ r.error = none ∧
    parseline (b "chroot_dir \"/etc\"\n") = .bad .varnameEqual ∧
    readMararc ([b "dns_port = 53\n"] ++ b "chroot_dir \"/etc\"\n" :: [b "dns_port = 54\n"]) =
      .go r' ∧ r'.error = some (2, some .varnameEqual) ∧ r'.vars.k (b "dns_port") = b "53" := by
  have h1 : parseline (b "dns_port = 53\n") =
      .line 1 (b "dns_port") (b "NOTHASH") (b "53") false := by decide +kernel
  have h2 : parseline (b "chroot_dir \"/etc\"\n") = .bad .varnameEqual := by decide +kernel
  have h3 : parseline (b "dns_port = 54\n") =
      .line 1 (b "dns_port") (b "NOTHASH") (b "54") false := by decide +kernel
  have hk : b "dns_port" ∈ keywords := by decide +kernel
  refine ⟨⟨Vars.init.setK (b "dns_port") (b "53"), none⟩,
    ⟨Vars.init.setK (b "dns_port") (b "53"), some (2, some .varnameEqual)⟩, ?_, rfl, h2, ?_, rfl,
    by simp [Vars.setK]⟩
  · simp [readMararc, lines, oneLine, h1, hk, writeK]
  · simp [readMararc, lines, oneLine, h1, h2, h3, hk, writeK]

/-- Findings: a plus sign, a bracket or a backslash in a comment, or one quote in it, makes the
line wrong, though a comment is not to matter; so does `{}` at the end of a file that does not
end in a line end, while something after `{}` goes unnoticed. -/
theorem comment_matters :
    parseline (b "dns_port = 53 # a+b\n") = .bad .plusForm ∧
    parseline (b "dns_port = 53 # a[1]\n") = .bad .leftNext ∧
    parseline (b "dns_port = 53 # a\\b\n") = .bad .noBackslash ∧
    parseline (b "dns_port = 53 # 3\" disk\n") = .bad .needUnquote ∧
    parseline (b "dns_port = 53 # a disk\n") =
      .line 1 (b "dns_port") (b "NOTHASH") (b "53") false ∧
    parseline (b "csv2 = {}") = .bad .unexpectedChar ∧
    parseline (b "csv2 = {}[\n") ≠ .line 3 (b "csv2") (b "NOTHASH") [] false ∧
    parseline (b "csv2 = {} 53\n") ≠ .line 3 (b "csv2") (b "NOTHASH") [] false ∧
    parseline (b "csv2 = {} x y {\n") = .line 3 (b "csv2") (b "NOTHASH") [] false := by
  decide +kernel

/-- The names are those of the manual page. -/
example : keywords.length = 56 ∧ keywords.Nodup ∧ dkeywords.length = 6 ∧ dkeywords.Nodup ∧
    (∀ n ∈ [b "ipv4_bind_addresses", b "ipv6_bind_address", b "chroot_dir", b "maradns_uid",
      b "zone_transfer_acl", b "recursive_acl", b "csv2_default_zonefile",
      b "bind_star_handling", b "long_packet_ipv4", b "rfc8482"], n ∈ keywords) := by
  decide +kernel

end Mara.Rc
