import Verif.Macro.MapMacroProps

/-!
# The regular expression extensions

`extensions/regex_ext.cc` (`regex.extract`, `regex.extractAll`, `regex.replace`) and
`extensions/regex_functions.cc` (`re.captureN`).  RE2 itself is a library: a compiled expression is modelled by
what `RE2::Match` answers.
-/

namespace Cel.Regex
open Cel Cel.Eval Cel.Data

set_option linter.unusedVariables false

abbrev Bytes := List UInt8

/-- A match: where it starts, how long it is, and what the groups captured (empty if a group took no part). -/
structure Match where
  start : Nat
  len : Nat
  caps : List Bytes

/-- A compiled expression: the number of groups, and `RE2::Match(text, startpos, text.size(), UNANCHORED, …)`.
The text before `startpos` is context: `^` and `\b` look at it. -/
structure Re where
  groups : Nat
  find : Bytes → Nat → Option Match

/-- The matched text. -/
def Match.text (t : Bytes) (m : Match) : Bytes := (t.drop m.start).take m.len

/-- `submatches[group_to_extract]`. -/
def desired (R : Re) (t : Bytes) (m : Match) : Bytes :=
  if R.groups = 1 then m.caps.headD [] else m.text t

/-- "regular expression has more than one capturing group". -/
def tooManyGroups : Status := ⟨.invalidArgument, "regular expression has more than one capturing group"⟩

/-- `Extract` (`extensions/regex_ext.cc` lines 57-88).  `re` is the outcome of compiling the pattern and
`CheckRE2`; an error stands for an error value. -/
def extract (re : Res Re) (t : Bytes) : Res (Option Bytes) := do
  let R ← re
  if R.groups > 1 then .err tooManyGroups
  else
    match R.find t 0 with
    | some m => .ok (some (desired R t m))
    | none => .ok none

/-- The loop of `ExtractAll` (`extensions/regex_ext.cc` lines 117-147): `t` is what is left of the target, and is
searched as a text of its own.  A match beyond the end of the text would be undefined behaviour. -/
def extractLoop (R : Re) (t : Bytes) : Res (List Bytes) :=
  match R.find t 0 with
  | none => .ok []
  | some m =>
    if m.len = 0 then
      if t.length = 0 then .ok []
      else extractLoop R (t.drop 1)
    else if m.start + m.len ≤ t.length then
      if R.groups = 1 ∧ desired R t m = [] then extractLoop R (t.drop (m.start + m.len))
      else
        match extractLoop R (t.drop (m.start + m.len)) with
        | .ok l => .ok (desired R t m :: l)
        | r => r
    else .ub
termination_by t.length
decreasing_by all_goals (simp only [List.length_drop]; omega)

/-- `ExtractAll` (`extensions/regex_ext.cc` lines 90-148). -/
def extractAll (re : Res Re) (t : Bytes) : Res (List Bytes) := do
  let R ← re
  if R.groups > 1 then .err tooManyGroups else extractLoop R t

/-- A replacement string that passed `CheckRewriteString`, as a function of the matched text and the captures
(`RE2::Rewrite`). -/
abbrev Rewrite := List Bytes → Bytes

def rewriteOf (rw : Rewrite) (t : Bytes) (m : Match) : Bytes := rw (m.text t :: m.caps)

/-- `RE2::GlobalReplace` (library: `re2/re2.cc`).  An empty match right after the previous match is skipped
together with one character, whose length is `adv` (at least 1). -/
def globalLoop (R : Re) (rw : Rewrite) (adv : Bytes → Nat) (t : Bytes) (p : Nat) (lastend : Option Nat) : Bytes :=
  if hp : p ≤ t.length then
    match R.find t p with
    | none => t.drop p
    | some m =>
      if hb : p ≤ m.start ∧ m.start + m.len ≤ t.length then
        if hs : lastend = some m.start ∧ m.len = 0 then
          (t.drop p).take (max 1 (adv (t.drop p))) ++
            globalLoop R rw adv t (p + max 1 (adv (t.drop p))) lastend
        else
          (t.drop p).take (m.start - p) ++ rewriteOf rw t m ++
            globalLoop R rw adv t (m.start + m.len) (some (m.start + m.len))
      else t.drop p
  else []
termination_by 2 * (t.length + 1 - p) + (if lastend = some p then 0 else 1)
decreasing_by
  · split <;> split <;> omega
  · simp only [if_true]
    split
    · rename_i hl
      by_cases hm : m.start + m.len = p
      · exfalso; apply hs; rw [hl]; constructor
        · congr 1; omega
        · omega
      · omega
    · omega

/-- `ReplaceAll` (`extensions/regex_ext.cc` lines 150-178); `rw` is the outcome of `CheckRewriteString`. -/
def replaceAll (re : Res Re) (rw : Res Rewrite) (adv : Bytes → Nat) (t : Bytes) : Res Bytes := do
  let R ← re
  let w ← rw
  return globalLoop R w adv t 0 none

/-- The loop of `ReplaceN` (`extensions/regex_ext.cc` lines 213-238): `n` more replacements, `done` so far
(an `int`). -/
def replaceLoop (R : Re) (rw : Rewrite) : Nat → Nat → Bytes → Res Bytes
  | 0, _, t => .ok t
  | n + 1, done, t =>
    match R.find t 0 with
    | none => .ok t
    | some m =>
      if m.start + m.len ≤ t.length then
        if done + 1 > 2147483647 then .ub
        else
          match replaceLoop R rw n (done + 1) (t.drop (m.start + m.len)) with
          | .ok r => .ok (t.take m.start ++ rewriteOf rw t m ++ r)
          | r => r
      else .ub

/-- `ReplaceN` (`extensions/regex_ext.cc` lines 180-243). -/
def replaceN (re : Res Re) (rw : Res Rewrite) (adv : Bytes → Nat) (t : Bytes) (count : Int) : Res Bytes :=
  if count = 0 then .ok t
  else if count < 0 then replaceAll re rw adv t
  else do
    let R ← re
    let w ← rw
    replaceLoop R w count.toNat 0 t

/-- The keys of `CaptureStringN` (`extensions/regex_functions.cc` lines 139-144): the group's name, or its number
from 1. -/
def captureKey (name : Nat → Option String) (i : Nat) : String :=
  match name i with
  | some n => n
  | none => toString i

/-- `CaptureStringN` (`extensions/regex_functions.cc` lines 104-150).  `groups` is what `RE2::FullMatchN` captured,
if the whole target matches.  Errors in the pattern and a failed match are error values; a failed insertion is a
status, which ends the evaluation. -/
def captureN (re : Res Re) (name : Nat → Option String) (groups : Option (List String)) : Res Value :=
  match re with
  | .err e => .ok (.error e)
  | .ub => .ub
  | .ok R =>
    if R.groups = 0 then .ok (.error ⟨.invalidArgument, "Capturing groups were not found in the given regex."⟩)
    else
      match groups with
      | none => .ok (.error ⟨.invalidArgument, "Unable to capture groups for the given regex"⟩)
      | some gs =>
        match Cel.Macro.putAll [] (gs.zipIdx.map fun g => (.str (captureKey name (g.2 + 1)), .str g.1)) with
        | .ok m => .ok (.map m)
        | .err e => .err e
        | .ub => .ub

end Cel.Regex
