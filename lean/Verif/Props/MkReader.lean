import Verif.Props.TrueParts
/-
C137: what `mk_reader()` of the stream buffer of a StreamSource does.
-/
namespace S2P
open Spec

namespace Src
variable {K V I : Type} [LT K] [DecidableLT K] [BEq V] {cfg : SrcCfg K V} {as : List (SrcAct K V I)} {s : Src K V I}

/-- A stream buffer without a session buffer, outside `open_reader()`, is left over from an `open_reader()` that failed. -/
def Tried (s : Src K V I) : Prop :=
  (∀ c x, s.sb = some (c, x) → s.pc ≠ .starting → s.pc ≠ .making → x.sourceBuffer = none → ∃ e, SrcEv.openError e ∈ s.log) ∧
  ∀ e, SrcEv.makeError e ∈ s.log → e = .streamNotStarted ∧ ∃ e', SrcEv.openError e' ∈ s.log

theorem Tried.step {s s' : Src K V I} {a : SrcAct K V I} (hg : s.Good cfg) (h : s.Tried) (hs : s.step cfg a = some s') : s'.Tried := by
  have hst := step_to hs
  clear hs
  have hidle := hg.idle
  obtain ⟨h1, h2⟩ := h
  unfold Tried
  cases hst with
  | bg a c x x' ha hx hs =>
    have := SB.step_idle (by rintro rfl; simp [SBAct.isBg] at ha) hs
    refine ⟨?_, h2⟩
    rintro _ _ ⟨⟩ hp hp' hb
    exact h1 c x hx hp hp' (by rw [← hb, (this (hidle c x hx hp)).2.1])
  | closeGo r c x x' hp hx hs =>
    have := SB.step_idle (by simp) hs
    refine ⟨?_, h2⟩
    rintro _ _ ⟨⟩ - - hb
    exact h1 c x hx (by simp [hp]) (by simp [hp]) (by rw [← hb, (this (hidle c x hx (by simp [hp]))).2.1])
  | closeLast r c x x' e hp hr ho hn hx hs he =>
    have := SB.step_idle (by simp) hs
    refine ⟨?_, by simpa [say] using h2⟩
    intro c1 x1 e _ _ hb
    simp only [say, Option.some.injEq, Prod.mk.injEq] at e
    obtain ⟨rfl, rfl⟩ := e
    obtain ⟨e, he⟩ := h1 c x hx (by simp [hp]) (by simp [hp]) (by rw [← hb, (this (hidle c x hx (by simp [hp]))).2.1])
    exact ⟨e, by simpa [say] using he⟩
  | closeErr r c x x' hp hr ho hn hx hs he =>
    have := SB.step_idle (by simp) hs
    refine ⟨?_, by simpa [say] using h2⟩
    intro c1 x1 e _ _ hb
    simp only [say, Option.some.injEq, Prod.mk.injEq] at e
    obtain ⟨rfl, rfl⟩ := e
    obtain ⟨e, he⟩ := h1 c x hx (by simp [hp]) (by simp [hp]) (by rw [← hb, (this (hidle c x hx (by simp [hp]))).2.1])
    exact ⟨e, by simpa [say] using he⟩
  | startErr c x hp hx hxs hb => exact ⟨fun _ _ _ _ _ _ => ⟨_, by simp only [say, List.mem_append, List.mem_singleton]; exact .inr rfl⟩, fun e he => by
      obtain ⟨k1, k2, k3⟩ := h2 e (by simpa [say] using he)
      exact ⟨k1, k2, by simp [say, k3]⟩⟩
  | openErr c x hp hx hb => exact ⟨fun _ _ _ _ _ _ => ⟨_, by simp only [say, List.mem_append, List.mem_singleton]; exact .inr rfl⟩, fun e he => by
      obtain ⟨k1, k2, k3⟩ := h2 e (by simpa [say] using he)
      exact ⟨k1, k2, by simp [say, k3]⟩⟩
  | mkErr c x hp hx hb =>
    obtain ⟨e', he'⟩ := h1 c x hx (by simp [hp]) (by simp [hp]) hb
    refine ⟨fun _ _ _ _ _ _ => ⟨e', by simp [say, he']⟩, fun e he => ?_⟩
    simp only [say, List.mem_append, List.mem_singleton, SrcEv.makeError.injEq] at he
    refine ⟨?_, e', by simp [say, he']⟩
    rcases he with he | rfl
    · exact (h2 e he).1
    · rfl
  | openFirst x hp hx hs =>
    refine ⟨fun _ _ _ hp' => absurd rfl hp', fun e he => ?_⟩
    obtain ⟨k1, k2, k3⟩ := h2 e (by simpa [say] using he)
    exact ⟨k1, k2, by simp [say, k3]⟩
  | openMore y hp hx => exact ⟨fun _ _ _ _ hp' => absurd rfl hp', h2⟩
  | started c x b hp hx hxs hb => exact ⟨fun _ _ _ _ hp' => absurd rfl hp', h2⟩
  | opened c x b hp hx hb =>
    refine ⟨fun c1 x1 e _ _ hb' => ?_, fun e he => ?_⟩
    · simp only [say, setOnclose] at e; rw [hx] at e; cases e; rw [hb] at hb'; cases hb'
    · obtain ⟨k1, k2, k3⟩ := h2 e (by simpa [say, setOnclose] using he)
      exact ⟨k1, k2, by simp [say, setOnclose, k3]⟩
  | _ =>
    refine ⟨fun c1 x1 e hp hp' hb => ?_, fun e he => ?_⟩
    · obtain ⟨k2, k3⟩ := h1 c1 x1 (by simpa [say, setOnclose] using e) (by simp_all) (by simp_all) hb
      exact ⟨k2, by simp [say, setOnclose, k3]⟩
    · obtain ⟨k1, k2, k3⟩ := h2 e (by simpa [say, setOnclose] using he)
      exact ⟨k1, k2, by simp [say, setOnclose, k3]⟩

theorem tried_exec (he : Src.init.exec cfg as = some s) : s.Tried :=
  (exec_ind (P := fun s => s.Good cfg ∧ s.Tried) (fun _ _ _ h hs => ⟨h.1.step hs, h.2.step h.1 hs⟩)
    ⟨Good.init cfg, by constructor <;> simp [Src.init]⟩ he).2

theorem made_exec (he : Src.init.exec cfg as = some s) : ∀ r, SrcEv.made r ∈ s.log → r < s.made := by
  refine exec_ind (P := fun s : Src K V I => ∀ r, SrcEv.made r ∈ s.log → r < s.made) ?_ (by simp [Src.init]) he
  intro s a s' h hs r hr
  have hst := step_to hs
  clear hs
  cases hst <;> simp only [say, setOnclose, List.mem_append, List.mem_singleton, reduceCtorEq, or_false, SrcEv.made.injEq] at hr ⊢
  all_goals first
    | exact h r hr
    | exact Nat.lt_succ_of_lt (h r hr)
    | (rcases hr with hr | rfl
       · exact Nat.lt_succ_of_lt (h r hr)
       · exact Nat.lt_succ_self _)

/-- **C137** `mk_reader()` on the stream buffer of a StreamSource raises only `StreamNotStartedError`, and only after an `open_reader()` that failed; and after such
a one no `mk_reader()` ever returned or returns a reader. -/
theorem C137_mk_reader (he : Src.init.exec cfg as = some s) :
    (∀ pre e post, s.log = pre ++ .makeError e :: post → e = .streamNotStarted ∧ ∃ e', SrcEv.openError e' ∈ pre) ∧
    ((∃ e, SrcEv.openError e ∈ s.log) → ∀ r, SrcEv.made r ∉ s.log) := by
  refine ⟨fun pre e post hl => ?_, fun hf r hr => ?_⟩
  · obtain ⟨s1, a, s2, new1, new2, post', ⟨as1, h1⟩, h2, h3, h4, h5, as2, h6e⟩ := origin he hl
    have ht := tried_exec h1
    cases h2 with
    | mkErr c x hp hx hb =>
      obtain ⟨rfl, h7, rfl⟩ := split_one (List.append_cancel_left h3)
      cases h7
      obtain ⟨e', he'⟩ := ht.1 c x hx (by simp [hp]) (by simp [hp]) hb
      exact ⟨rfl, e', by rw [h4]; simp [he']⟩
    | closeUser r' hp hr ho =>
      simp only [say, List.append_assoc, List.singleton_append] at h3
      rcases split_two (List.append_cancel_left h3) with ⟨rfl, h7, rfl⟩ | ⟨rfl, h7, rfl⟩ <;> cases h7
    | closeLast r' c x x' e hp hr ho hn hx hs hev =>
      simp only [say, List.append_assoc, List.singleton_append] at h3
      rcases split_two (List.append_cancel_left h3) with ⟨rfl, h7, rfl⟩ | ⟨rfl, h7, rfl⟩ <;> cases h7
    | _ =>
      exfalso
      first
      | (have := congrArg List.length h3; simp at this; done)
      | (obtain ⟨_, h7, _⟩ := split_one (List.append_cancel_left h3); cases h7)
  · have h0 := (failed_exec he hf).2.2.2.1
    have := made_exec he r hr
    omega

/-- Meets C137_mk_reader: `open()` of the source raises in the first `open_reader()`; `mk_reader()` on the stream buffer raises, and so does the next
`open_reader()`. -/
theorem C137_mk_reader_meets : ∃ (s : Src Nat Nat Nat), Src.init.exec wcfg ((.openReader :: (List.replicate 5 (.bg .startGo)) ++ [.bg .openRaise, .openGo]) ++ [.mkReader, .openReader, .openGo]) = some s ∧
    s.log = [.bufferMade (some 100, true), .openError (.other 0), .makeError .streamNotStarted, .openError .streamNotStarted] := ⟨_, rfl, rfl⟩

end Src
end S2P
