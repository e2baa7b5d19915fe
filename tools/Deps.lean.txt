import Verif
open Lean
/- For every theorem of MANIFEST.json: the declarations of this project its statement and proof depend on, one line each. -/
def deps (env : Environment) (n : Name) : Array Name := Id.run do
  let mut todo := #[n]
  let mut seen : NameSet := {}
  let mut out := #[]
  while !todo.isEmpty do
    let c := todo.back!
    todo := todo.pop
    if seen.contains c then continue
    seen := seen.insert c
    match env.getModuleIdxFor? c with
    | some m => if !((`Verif).isPrefixOf env.header.moduleNames[m.toNat]!) then continue
    | none => continue
    out := out.push c
    match env.find? c with
    | some ci => for d in ci.getUsedConstantsAsSet do todo := todo.push d
    | none => pure ()
  return out
#eval show CoreM Unit from do
  let env ← getEnv
  let l ← IO.FS.lines "/tmp/mut/thms"
  let mut s := ""
  for x in l do
    let n := x.trimAscii.toString.toName
    s := s ++ x ++ " " ++ " ".intercalate ((deps env n).toList.map fun d =>
      (env.header.moduleNames[(env.getModuleIdxFor? d).get!.toNat]!).toString ++ ":" ++ d.toString) ++ "\n"
  IO.FS.writeFile "/tmp/mut/deps" s
