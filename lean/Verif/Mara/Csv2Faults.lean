import Verif.Mara.Csv2Prefix
/-!
# Findings: zone files

Files on which the parser does not do what the documentation of csv2 zone files says, or what a reader of them would take
for granted.  `rd` is `csv2_parse_zone` with the default setting for tildes.
-/

namespace Mara
namespace Csv2

open Dw (Res)
open Spec (ascii encName)

/-- The zone `example.com.`, read with the default settings. -/
def rd (text : List UInt8) : Res Outcome := readText (fun _ => none) 2 1 (ascii "example.com.") text

def host (s : String) : List UInt8 := encName [ascii s, ascii "example", ascii "com"]

/-! ## UTF-8 -/

/-- `अ`, U+0905, comes out as two bytes that are not UTF-8, behind a length of three: the record is one byte too short for
the string it says it holds (Csv2_parse.c:289-309, Csv2_rr_txt.c:166-182). -/
theorem utf8_three_bytes : rd (ascii "a.% A 1.2.3.4 ~\nb.% TXT '" ++ [0xe0, 0xa4, 0x85] ++ ascii "' ~\n") =
    .ok (.read [⟨host "a", 1, 86400, some [1, 2, 3, 4]⟩, ⟨host "b", 16, 86400, some [3, 0xe4, 0x85]⟩]) := by decide +kernel

/-- U+1F600 comes out as three bytes behind a length of four. -/
theorem utf8_four_bytes : rd (ascii "a.% A 1.2.3.4 ~\nb.% TXT '" ++ [0xf0, 0x9f, 0x98, 0x80] ++ ascii "' ~\n") =
    .ok (.read [⟨host "a", 1, 86400, some [1, 2, 3, 4]⟩, ⟨host "b", 16, 86400, some [4, 0xff, 0x98, 0x80]⟩]) := by decide +kernel

/-! ## The stack of origins -/

/-- Eight times into a directory and back. -/
def inOut : Nat → List UInt8
  | 0 => []
  | n + 1 => ascii "/opush sub.% ~\n/opop ~\n" ++ inOut n

theorem pushed_eight : rd (ascii "a.% 1.2.3.4 ~\n" ++ inOut 8 ++ ascii "b.% 1.2.3.5 ~\n") =
    .ok (.read [⟨host "a", 1, 86400, some [1, 2, 3, 4]⟩, ⟨host "b", 1, 86400, some [1, 2, 3, 5]⟩]) := by decide +kernel

/-- `/opop` does not take down the height of the stack: the ninth `/opush` of a file ends the reading of it, although the
stack is empty (Csv2_parse.c:1545-1580). -/
theorem pushed_nine : rd (ascii "a.% 1.2.3.4 ~\n" ++ inOut 9 ++ ascii "b.% 1.2.3.5 ~\n") =
    .ok (.partly [⟨host "a", 1, 86400, some [1, 2, 3, 4]⟩]) := by decide +kernel

/-! ## Addresses -/

/-- Too many groups after `::` are written in front of the buffer (Parse_ipv6.c:330-345). -/
theorem ip6_before : rd (ascii "a.% AAAA ::1:2:3:4:5:6:7:8:9:a:b ~\n") = .ub := by decide +kernel

/-- A group too many, and the first one is lost. -/
theorem ip6_nine : rd (ascii "a.% AAAA 1::2:3:4:5:6:7:8:9 ~\n") =
    .ok (.read [⟨host "a", 28, 86400, some [0, 2, 0, 3, 0, 4, 0, 5, 0, 6, 0, 7, 0, 8, 0, 9]⟩]) := by decide +kernel

/-- Two groups are enough. -/
theorem ip6_two : rd (ascii "a.% AAAA 1:2 ~\n") =
    .ok (.read [⟨host "a", 28, 86400, some [0, 1, 0, 2, 0, 0, 0, 0, 0, 0, 0, 0, 0, 0, 0, 0]⟩]) := by decide +kernel

/-- Three numbers and a dot are enough. -/
theorem ip4_three : rd (ascii "a.% A 1.2.3. ~\n") = .ok (.read [⟨host "a", 1, 86400, some [1, 2, 3, 0]⟩]) := by decide +kernel

/-- A number above 255 ends the reading in a record with a type. -/
theorem ip4_large : rd (ascii "a.% A 1.2.3.256 ~\nb.% A 1.2.3.4 ~\n") = .ok (.partly []) := by decide +kernel

/-- In a record without a type it does not: the record is left out. -/
theorem ip4_large_bare : rd (ascii "a.% 1.2.3.256 ~\nb.% A 1.2.3.4 ~\n") =
    .ok (.read [⟨host "a", 1, 86400, none⟩, ⟨host "b", 1, 86400, some [1, 2, 3, 4]⟩]) := by decide +kernel

/-! ## Numbers -/

/-- Times above 2147483647 overflow (`js_atoi`, JsStr.c). -/
theorem ttl_large : rd (ascii "a.% +2147483648 A 1.2.3.4 ~\n") = .ub := by decide +kernel

/-! ## Strings -/

/-- The first record of a file cannot be a TXT record, unless it is set whether tildes are used. -/
theorem txt_first : rd (ascii "a.% TXT 'text' ~\n") = .ok (.partly []) := by decide +kernel

/-- The empty string cannot be written without quotes. -/
theorem txt_empty : rd (ascii "a.% A 1.2.3.4 ~\nb.% TXT  ~\nc.% A 1.2.3.4 ~\n") =
    .ok (.partly [⟨host "a", 1, 86400, some [1, 2, 3, 4]⟩]) := by decide +kernel

theorem txt_quotes : rd (ascii "a.% A 1.2.3.4 ~\nb.% TXT '' ~\n") =
    .ok (.read [⟨host "a", 1, 86400, some [1, 2, 3, 4]⟩, ⟨host "b", 16, 86400, some [0]⟩]) := by decide +kernel

/-- An opening brace ends the reading, even in a comment. -/
theorem brace : rd (ascii "a.% A 1.2.3.4 ~\n# use {}\nb.% A 1.2.3.4 ~\n") =
    .ok (.read [⟨host "a", 1, 86400, some [1, 2, 3, 4]⟩]) := by decide +kernel

/-! ## Names -/

/-- The root cannot be written as the target of a record. -/
theorem root_target : rd (ascii "a.% MX 0 . ~\n") = .ok (.partly []) := by decide +kernel

/-- A mail address with dots cannot have a second label of one character. -/
theorem mbox_short : rd (ascii "% SOA a.% b.c.example.com. 1 2 3 4 5 ~\n") = .ok (.partly []) := by decide +kernel

/-! ## Files -/

/-- The last line counts only if something follows it. -/
theorem last_line : rd (ascii "a.% A 1.2.3.4") = .ok (.partly []) := by decide +kernel

/-- `/read` takes the line after it along, if no tilde ends it. -/
theorem read_next : readText (fun _ => some (ascii "c.% A 1.2.3.6\n")) 1 1 (ascii "example.com.")
    (ascii "a.% A 1.2.3.4\n/read f\nb.% A 1.2.3.5\nd.% A 1.2.3.7\n") =
    .ok (.read [⟨host "a", 1, 86400, some [1, 2, 3, 4]⟩, ⟨host "c", 1, 86400, some [1, 2, 3, 6]⟩,
      ⟨host "d", 1, 86400, some [1, 2, 3, 7]⟩]) := by decide +kernel

end Csv2
end Mara
