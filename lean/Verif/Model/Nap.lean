import Verif.Model.AutoDrop
/-
stream_buffer.py 133-138, 264: the sleep time given to StreamBuffer, or by the source, is not checked; `time.sleep` raises for a negative one or NaN
(`ValueError`) and for one that is too large (`OverflowError`). The stream buffer of Model/AutoDrop.lean (`auto_drop` may be assigned at any time) with such a
sleep time: whenever a reading thread is to sleep, the exception leaves the loop (254-264) for the `finally` block (265-271).
-/
namespace S2P

namespace ASB
variable {K V I : Type} [LT K] [DecidableLT K] [BEq V]

/-- One step; `time.sleep` raises `e`. Other than at line 264 nothing differs. -/
def napStep (e : PyErr) (cfg : SBCfg K V) (s : ASB K V I) : AAct K V I → Option (ASB K V I)
  | .act (.thr t) => match s.sb.thr t with
    | .sleeping => some { s with sb := (s.sb.setThr t .fin1).say (.crashed t e) }
    | _ => s.step cfg (.act (.thr t))
  | a => s.step cfg a

/-- An execution. -/
def napExec (e : PyErr) (cfg : SBCfg K V) : ASB K V I → List (AAct K V I) → Option (ASB K V I)
  | s, [] => some s
  | s, a :: as => match s.napStep e cfg a with
    | some s' => s'.napExec e cfg as
    | none => none

end ASB
end S2P
