import Verif.Props.JoinWitness
import Verif.Props.SourceReader
import Verif.Props.Lifecycle
import Verif.Props.SBWitness
/-
C128, C129: what is true where C33, C43, C44 and C80 are not.
-/
namespace S2P
open Spec

/-! ### C128 -/
namespace JSB
variable {K V I : Type} [LinearOrder K] [BEq V] [ReflBEq V] {cfg : SBCfg K V} {s : JSB K V I} {xs : List (JAct K V I)}

/-- **C128** for users who let `join()` return before they restart: with `auto_drop=False` the source is only read while the buffer of the session has room;
with any setting but `maxlen=None, auto_drop=False` no thread ends by an exception but of the source or of a refused key. -/
theorem C128_room (he : (JSB.init : JSB K V I).exec cfg xs = some s) (hc : (JSB.init : JSB K V I).Careful cfg xs) :
    (cfg.autoDrop = false → ∀ t, s.sb.thr t = .reading → ∃ m, cfg.maxlen = some m ∧ (s.sb.items t).length < m) ∧
    (cfg.maxlen ≠ none ∨ cfg.autoDrop = true → ∀ t e, Ev.crashed t e ∉ s.sb.log) := by
  obtain ⟨h1, h2⟩ := C66_careful_settled he hc
  exact ⟨fun ha t hr => (SB.C33_reads_when_room_partial ha h1 h2 t hr).2, fun hm t e => SB.C44_no_crash_partial hm h1 h2 t e⟩
end JSB

namespace SB
variable {K V I : Type} [LinearOrder K] [BEq V] {cfg : SBCfg K V} {s s' : SB K V I} {as : List (SBAct K V I)}

/-- **C128** for users who call `next(stream_buffer)` only between `start()` and `stop()`: it reads from the buffer of the latest session. -/
theorem C128_next (he : SB.init.exec cfg as = some s) (ht : SB.init.NextCare cfg True as) (hl : s.start = none) (c b : Nat)
    (hs : s.step cfg (.nextGo c) = some s') (hlog : s'.log = s.log ++ [.nextOn (.ok b)]) : current s.log = some b :=
  C43_careful_partial he ht hl c b hs hlog
end SB

namespace JSB
/-- Meets C128: with `auto_drop=False` and room for two, two sessions, the first joined; the second one is reading with one item stored. -/
def wRoom : List (JAct Nat Nat Nat) :=
  lift (SB.wStart 7 ++ SB.wItemM 0 1 ++ SB.wStop 0) ++ [.look 0, .wait 0] ++ lift (SB.wStart 8 ++ SB.wItemM 1 5 ++ [.thr 1, .thr 1, .thr 1])

theorem C128_meets : ∃ s : J, JSB.init.exec (SB.mkCfg (some 2) false) wRoom = some s ∧ (JSB.init : J).Careful (SB.mkCfg (some 2) false) wRoom ∧
    s.sb.thr 1 = .reading ∧ s.sb.items 1 = [5] :=
  ⟨_, rfl, careful_of_check _ _ rfl, rfl, rfl⟩
end JSB

/-! ### C129 -/
namespace SR

/-- A `with` block over the source has been entered (its `open()` returned) and not left since (its `close()` returned). -/
def inWith (as : List SRAct) : Bool :=
  as.foldl (fun o a => match a with | .enter true => true | .exit true => false | _ => o) false

/-- **C129** for a SourceReader that does not keep the flag itself, `closed` is False exactly inside `with` blocks over the source; calls of `open()` and
`close()`, also by a StreamBuffer, do not change it. With `with` blocks only, it is False exactly while the source is open. All histories, raising or not. -/
theorem C129_closed_exact (as : List SRAct) : (init.run .plain as).closedFlag = !inWith as ∧
    ∀ k, (∀ a ∈ as, onlyWith a = true) → (init.run k as).closedFlag = !srcOpen (init.run k as).log := by
  refine ⟨?_, fun k h => C80_with_partial k as h⟩
  have key : ∀ (as : List SRAct) (s : SR) (o : Bool), s.closedFlag = !o → (s.run .plain as).closedFlag =
      !(as.foldl (fun o a => match a with | .enter true => true | .exit true => false | _ => o) o) := by
    intro as
    induction as with
    | nil => exact fun s o h => h
    | cons a as ih =>
      intro s o h
      simp only [run, List.foldl_cons]
      refine ih _ _ ?_
      cases a with
      | «open» ok => cases ok <;> simp [step, SR.open, h]
      | close ok => cases ok <;> simp [step, SR.close, h]
      | enter ok => cases ok <;> simp [step, SR.open, h]
      | exit ok => cases ok <;> simp [step, SR.close, h]
  exact key as init false rfl

/-- C129: a `with` block, inside it a StreamBuffer opens and closes the source. -/
theorem C129_meets : (init.run .plain [.enter true, .open true, .close true]).closedFlag = false ∧
    (init.run .plain [.enter true, .open true, .close true, .exit true, .open true]).closedFlag = true := ⟨rfl, rfl⟩
end SR
end S2P
