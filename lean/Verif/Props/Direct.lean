import Verif.Model.LineSource
import Verif.Model.HttpSource
import Verif.Model.SimplySource
import Verif.Model.Counter
import Verif.Spec.Direct
/-
C144-C147: source readers used directly, their methods called in any order.
-/
namespace S2P
open Spec
variable {σ K V I : Type}

/-- The calls `l` take the object from one state to another. -/
inductive SrcObj.Hist (o : SrcObj σ K V I) : σ → List (Did V) → σ → Prop
  | nil (s : σ) : Hist o s [] s
  | open' {s s' : σ} {l : List (Did V)} : Hist o (o.open' s).2 l s' → Hist o s (.opened (o.open' s).1 :: l) s'
  | read {s s' : σ} {l : List (Did V)} : Hist o (o.read s).2 l s' → Hist o s (.read (o.read s).1 :: l) s'
  | close {s s' : σ} {l : List (Did V)} : Hist o (o.close s).2 l s' → Hist o s (.closed (o.close s).1 :: l) s'

namespace SrcObj.Hist
variable {o : SrcObj σ K V I} {s s' : σ} {l l' : List (Did V)} {d : Did V}

theorem split : ∀ {l : List (Did V)} {s : σ}, Hist o s (l ++ l') s' → ∃ m, Hist o s l m ∧ Hist o m l' s'
  | [], s, h => ⟨s, .nil s, h⟩
  | d :: l, s, h => by
    rw [List.cons_append] at h
    cases h with
    | open' h => obtain ⟨m, h1, h2⟩ := split h; exact ⟨m, .open' h1, h2⟩
    | read h => obtain ⟨m, h1, h2⟩ := split h; exact ⟨m, .read h1, h2⟩
    | close h => obtain ⟨m, h1, h2⟩ := split h; exact ⟨m, .close h1, h2⟩

theorem read_inv {r : Py (Option V)} (h : Hist o s (.read r :: l) s') : r = (o.read s).1 ∧ Hist o (o.read s).2 l s' := by
  cases h; exact ⟨rfl, by assumption⟩

theorem open_inv {r : Py Unit} (h : Hist o s (.opened r :: l) s') : r = (o.open' s).1 ∧ Hist o (o.open' s).2 l s' := by
  cases h; exact ⟨rfl, by assumption⟩

theorem close_inv {r : Py Unit} (h : Hist o s (.closed r :: l) s') : r = (o.close s).1 ∧ Hist o (o.close s).2 l s' := by
  cases h; exact ⟨rfl, by assumption⟩

/-- An invariant of the calls made so far and the state. -/
theorem ind {P : List (Did V) → σ → Prop} (hopen : ∀ l s, P l s → P (l ++ [.opened (o.open' s).1]) (o.open' s).2)
    (hread : ∀ l s, P l s → P (l ++ [.read (o.read s).1]) (o.read s).2) (hclose : ∀ l s, P l s → P (l ++ [.closed (o.close s).1]) (o.close s).2) :
    ∀ {l : List (Did V)} {s s' : σ} {p : List (Did V)}, P p s → Hist o s l s' → P (p ++ l) s'
  | [], s, s', p, h0, h => by cases h; simpa using h0
  | d :: l, s, s', p, h0, h => by
    have key : ∀ d' m, P (p ++ [d']) m → Hist o m l s' → P (p ++ d' :: l) s' := fun d' m h1 h2 => by
      have := ind hopen hread hclose h1 h2
      rwa [List.append_assoc] at this
    cases h with
    | open' h => exact key _ _ (hopen p s h0) h
    | read h => exact key _ _ (hread p s h0) h
    | close h => exact key _ _ (hclose p s h0) h

end SrcObj.Hist

namespace Spec
theorem opens_snoc (l : List (Did V)) (d : Did V) : opens (l ++ [d]) = opens l + if Did.isOpen d then 1 else 0 := by simp [opens, List.countP_append]
theorem reads_snoc (l : List (Did V)) (d : Did V) : reads (l ++ [d]) = reads l + if Did.isRead d then 1 else 0 := by simp [reads, List.countP_append]
theorem readOks_snoc (l : List (Did V)) (d : Did V) : readOks (l ++ [d]) = readOks l + if Did.isReadOk d then 1 else 0 := by
  simp [readOks, List.countP_append]
theorem sinceOpen_snoc (l : List (Did V)) (d : Did V) : sinceOpen (l ++ [d]) = if Did.isOpen d then [] else sinceOpen l ++ [d] := by
  simp [sinceOpen, List.takeWhile_cons]
  split <;> simp_all
end Spec

namespace LineSrc
variable {L : Type} {d : Disk L} {eof : L} {s s' : St L} {l a b : List (Did (Nat × L))}

theorem counts_inv (h : (lines d eof).Hist new l s) : s.lineCount = readOks (sinceOpen l) ∧ s.opens = opens l := by
  have := SrcObj.Hist.ind (o := lines d eof) (P := fun l s => s.lineCount = readOks (sinceOpen l) ∧ s.opens = opens l) ?_ ?_ ?_ (p := []) (by exact ⟨rfl, rfl⟩) h
  · simpa using this
  · rintro l s ⟨h1, h2⟩
    simp only [lines, open', sinceOpen_snoc, opens_snoc, Did.isOpen]
    cases d s.opens <;> simp [h2, readOks]
  · rintro l s ⟨h1, h2⟩
    simp only [lines, read, sinceOpen_snoc, opens_snoc, Did.isOpen, Bool.false_eq_true, if_false, readOks_snoc]
    cases s.f with
    | none => simp [h1, h2, Did.isReadOk]
    | closed => simp [h1, h2, Did.isReadOk]
    | opened r =>
      cases r with
      | nil => simp [h1, h2, Did.isReadOk]
      | cons x r => cases x <;> simp [h1, h2, Did.isReadOk]
  · rintro l s ⟨h1, h2⟩
    simp only [lines, close, sinceOpen_snoc, opens_snoc, Did.isOpen, Bool.false_eq_true, if_false, readOks_snoc]
    cases s.f <;> simp [h1, h2, Did.isReadOk]

theorem never (h : (lines d eof).Hist s l s') (hf : s.f = .none) (hl : NoOpenOk l) : s'.f = .none := by
  induction h with
  | nil => exact hf
  | @open' s s' l h ih =>
    refine ih ?_ fun x hx => hl x (by simp [hx])
    have := hl _ (List.mem_cons_self ..)
    simp only [lines, open'] at this ⊢
    cases hd : d s.opens <;> simp_all [Did.isOpenOk]
  | @read s s' l h ih => exact ih (by simp [lines, read, hf]) fun x hx => hl x (by simp [hx])
  | @close s s' l h ih => exact ih (by simp [lines, close, hf]) fun x hx => hl x (by simp [hx])

theorem shut (h : (lines d eof).Hist s l s') (hf : s.f = .closed) (hl : NoOpenOk l) : s'.f = .closed := by
  induction h with
  | nil => exact hf
  | @open' s s' l h ih =>
    refine ih ?_ fun x hx => hl x (by simp [hx])
    have := hl _ (List.mem_cons_self ..)
    simp only [lines, open'] at this ⊢
    cases hd : d s.opens <;> simp_all [Did.isOpenOk]
  | @read s s' l h ih => exact ih (by simp [lines, read, hf]) fun x hx => hl x (by simp [hx])
  | @close s s' l h ih => exact ih (by simp [lines, close, hf]) fun x hx => hl x (by simp [hx])

theorem reading (h : (lines d eof).Hist s l s') {rest : List (Py L)} (hf : s.f = .opened rest) (hl : NoOpenOk l) (hc : NoClose l) :
    s'.f = .opened (rest.drop (reads l)) := by
  induction h generalizing rest with
  | nil => simpa [reads] using hf
  | @open' s s' l h ih =>
    have := ih (rest := rest) ?_ (fun x hx => hl x (by simp [hx])) (fun x hx => hc x (by simp [hx]))
    · simpa [reads, Did.isRead] using this
    · have := hl _ (List.mem_cons_self ..)
      simp only [lines, open'] at this ⊢
      cases hd : d s.opens <;> simp_all [Did.isOpenOk]
  | @read s s' l h ih =>
    have := ih (rest := rest.drop 1) ?_ (fun x hx => hl x (by simp [hx])) (fun x hx => hc x (by simp [hx]))
    · rw [this, List.drop_drop]; simp [reads, List.countP_cons, Did.isRead, Nat.add_comm]
    · simp only [lines, read, hf]
      cases rest with
      | nil => simp [hf]
      | cons x r => cases x <;> simp
  | @close s s' l h ih => exact absurd (hc _ (List.mem_cons_self ..)) (by simp [Did.isClose])

/-- **C144**, before the first `open()` that succeeds: `read()` and `close()` raise `AttributeError`. -/
theorem C144_before (h : (lines d eof).Hist new (a ++ b) s) (ha : NoOpenOk a) :
    (∀ r l, b = .read r :: l → r = .error .attributeError) ∧ (∀ r l, b = .closed r :: l → r = .error .attributeError) := by
  obtain ⟨m, h1, h2⟩ := h.split
  have hf := never h1 rfl ha
  constructor <;> rintro r l rfl
  · rw [h2.read_inv.1]; simp [lines, read, hf]
  · rw [h2.close_inv.1]; simp [lines, close, hf]

/-- **C144**, with the file open: after the last `open()` that succeeded there was no `close()`. The `k`-th `read()` since then gets the `k`-th line of
the file, or the empty line beyond its end, or raises what `readline()` raises; its number is the number of answered `read()` since the last `open()`,
also if that `open()` raised. -/
theorem C144_open (h : (lines d eof).Hist new (a ++ .opened (.ok ()) :: b ++ [.read r]) s) (hb : NoOpenOk b) (hc : NoClose b) :
    ∃ file : List (Py L), d (opens a) = .ok file ∧ r = match file[reads b]? with
      | some (.ok x) => .ok (some (readOks (sinceOpen (a ++ .opened (.ok ()) :: b)), x))
      | some (.error e) => .error e
      | none => .ok (some (readOks (sinceOpen (a ++ .opened (.ok ()) :: b)), eof)) := by
  obtain ⟨m, h1, h2⟩ := h.split
  have hn := (counts_inv h1).1
  obtain ⟨q, h3, h4⟩ := h1.split
  have ho := (counts_inv h3).2
  obtain ⟨h5, h6⟩ := h4.open_inv
  have hr := h2.read_inv.1
  simp only [lines, open'] at h5
  rw [ho] at h5
  cases hd : d (opens a) with
  | error e => rw [hd] at h5; simp at h5
  | ok file =>
    refine ⟨file, rfl, ?_⟩
    have hf := reading h6 (rest := file) (by simp [lines, open', ho, hd]) hb hc
    rw [hr]
    simp only [lines, read, hf]
    rw [← hn]
    have hg : file[reads b]? = (file.drop (reads b))[0]? := by simp
    rw [hg]
    cases file.drop (reads b) with
    | nil => rfl
    | cons x r => cases x <;> rfl

/-- **C144**, after a `close()` of the file that no `open()` reopened: `read()` raises `ValueError`, closing again does nothing. -/
theorem C144_closed (h : (lines d eof).Hist new (a ++ .closed (.ok ()) :: b ++ l) s) (hb : NoOpenOk b) :
    (∀ r l', l = .read r :: l' → r = .error .valueError) ∧ (∀ r l', l = .closed r :: l' → r = .ok ()) := by
  obtain ⟨m, h1, h2⟩ := h.split
  obtain ⟨q, h3, h4⟩ := h1.split
  obtain ⟨h5, h6⟩ := h4.close_inv
  have hq : ((lines d eof).close q).2.f = .closed := by
    simp only [lines, close] at h5 ⊢
    cases hf : q.f <;> rw [hf] at h5 <;> first | rfl | simp at h5
  have hf := shut h6 hq hb
  constructor <;> rintro r l' rfl
  · rw [h2.read_inv.1]; simp [lines, read, hf]
  · rw [h2.close_inv.1]; simp [lines, close, hf]

/-- A file of two lines, which cannot be opened the second time: open, two lines and one beyond the end, a failed open, after which the numbers start
again, close, and a read that raises. -/
example : ∃ s, (lines (fun k => if k = 0 then .ok [.ok 'a', .ok 'b'] else .error .runtimeError) '-').Hist new
    ([] ++ .opened (.ok ()) :: [.read (.ok (some (0, 'a'))), .read (.ok (some (1, 'b'))), .opened (.error .runtimeError)] ++
      [.read (.ok (some (0, '-'))), .closed (.ok ()), .read (.error .valueError)]) s :=
  ⟨_, .open' (.read (.read (.open' (.read (.close (.read (.nil _)))))))⟩

end LineSrc

namespace HttpSrc
variable {T B R : Type} {w : Web T B} {decode : List B → Py R} {s s' : St B} {l a b : List (Did (T × R))}

theorem opens_inv (h : (http w decode).Hist new l s) : s.opens = opens l := by
  have := SrcObj.Hist.ind (o := http w decode) (P := fun l s => s.opens = opens l) ?_ ?_ ?_ (p := []) rfl h
  · simpa using this
  · intro l s h
    simp only [http, open', opens_snoc, Did.isOpen]
    cases w.responses s.opens <;> simp [h]
  · intro l s h
    simp only [http, read, opens_snoc, Did.isOpen]
    cases s.response with
    | none => simpa using h
    | some r =>
      cases r with
      | nil => simp only [piece]; cases decode [] <;> simpa using h
      | cons x r =>
        cases x with
        | error e => simpa using h
        | ok p => simp only [piece]; cases decode p <;> simpa using h
  · intro l s h; simpa [http, opens_snoc, Did.isOpen] using h

theorem away (h : (http w decode).Hist s l s') (hf : s.response = none) (hl : NoOpenOk l) : s'.response = none := by
  induction h with
  | nil => exact hf
  | @open' s s' l h ih =>
    refine ih ?_ fun x hx => hl x (by simp [hx])
    have := hl _ (List.mem_cons_self ..)
    simp only [http, open'] at this ⊢
    cases hd : w.responses s.opens <;> simp_all [Did.isOpenOk]
  | @read s s' l h ih => exact ih (by simp [http, read, hf]) fun x hx => hl x (by simp [hx])
  | @close s s' l h ih => exact ih (by simp [http]) fun x hx => hl x (by simp [hx])

theorem reading (h : (http w decode).Hist s l s') {rest : List (Py (List B))} (hf : s.response = some rest) (hl : NoOpenOk l) (hc : NoClose l) :
    s'.response = some (rest.drop (reads l)) := by
  induction h generalizing rest with
  | nil => simpa [reads] using hf
  | @open' s s' l h ih =>
    have := ih (rest := rest) ?_ (fun x hx => hl x (by simp [hx])) (fun x hx => hc x (by simp [hx]))
    · simpa [reads, Did.isRead] using this
    · have := hl _ (List.mem_cons_self ..)
      simp only [http, open'] at this ⊢
      cases hd : w.responses s.opens <;> simp_all [Did.isOpenOk]
  | @read s s' l h ih =>
    have := ih (rest := rest.drop 1) ?_ (fun x hx => hl x (by simp [hx])) (fun x hx => hc x (by simp [hx]))
    · rw [this, List.drop_drop]; simp [reads, List.countP_cons, Did.isRead, Nat.add_comm]
    · simp only [http, read, hf]
      cases rest with
      | nil => simp only [piece]; cases decode [] <;> rfl
      | cons x r =>
        cases x with
        | error e => rfl
        | ok p => simp only [piece]; cases decode p <;> rfl
  | @close s s' l h ih => exact absurd (hc _ (List.mem_cons_self ..)) (by simp [Did.isClose])

/-- **C145**, not open: before the first `open()` that succeeds, and after a `close()` until the next one, `read()` raises `AttributeError`. `close()` never
raises. -/
theorem C145_not_open (h : (http w decode).Hist new (a ++ [.read r]) s)
    (ha : NoOpenOk a ∨ ∃ a1 c a2, a = a1 ++ .closed c :: a2 ∧ NoOpenOk a2) : r = .error .attributeError := by
  obtain ⟨m, h1, h2⟩ := h.split
  have hf : m.response = none := by
    rcases ha with ha | ⟨a1, c, a2, rfl, ha⟩
    · exact away h1 rfl ha
    · obtain ⟨q, h3, h4⟩ := h1.split
      exact away h4.close_inv.2 rfl ha
  rw [h2.read_inv.1]; simp [http, read, hf]

theorem C145_close (h : (http w decode).Hist new (a ++ .closed c :: b) s) : c = .ok () := by
  obtain ⟨m, h1, h2⟩ := h.split
  rw [h2.close_inv.1]; rfl

/-- **C145**, open: the `k`-th `read()` since the last `open()` that succeeded, with no `close()` since then, gets the `k`-th piece of the response (`b''`
beyond the end), decoded, or raises what the response or the decoding raises. -/
theorem C145_open (h : (http w decode).Hist new (a ++ .opened (.ok ()) :: b ++ [.read r]) s) (hb : NoOpenOk b) (hc : NoClose b) :
    ∃ body : List (Py (List B)), w.responses (opens a) = .ok body ∧
      match (body[reads b]?.getD (.ok [])) >>= decode with
      | .ok x => ∃ n, r = .ok (some (w.clock n, x))
      | .error e => r = .error e := by
  obtain ⟨m, h1, h2⟩ := h.split
  obtain ⟨q, h3, h4⟩ := h1.split
  have ho := opens_inv h3
  obtain ⟨h5, h6⟩ := h4.open_inv
  have hr := h2.read_inv.1
  simp only [http, open'] at h5
  rw [ho] at h5
  cases hd : w.responses (opens a) with
  | error e => rw [hd] at h5; simp at h5
  | ok body =>
    refine ⟨body, rfl, ?_⟩
    have hf := reading h6 (rest := body) (by simp [http, open', ho, hd]) hb hc
    simp only [http, read, hf] at hr
    have hg : body[reads b]? = (body.drop (reads b))[0]? := by simp
    rw [hg]
    generalize body.drop (reads b) = rest at hr
    cases rest with
    | nil =>
      change match decode [] with | .ok x => _ | .error e => _
      simp only [piece] at hr
      cases hx : decode [] with
      | ok x => rw [hx] at hr; exact ⟨_, hr⟩
      | error e => rw [hx] at hr; exact hr
    | cons p rest =>
      cases p with
      | error e => exact hr
      | ok p =>
        change match decode p with | .ok x => _ | .error e => _
        simp only [piece] at hr
        cases hx : decode p with
        | ok x => rw [hx] at hr; exact ⟨_, hr⟩
        | error e => rw [hx] at hr; exact hr

section
variable {f : List B → R}

theorem ticks_inv (h : (http w fun p => .ok (f p)).Hist new l s) : s.ticks = readOks l := by
  have := SrcObj.Hist.ind (o := http w fun p => .ok (f p)) (P := fun l s => s.ticks = readOks l) ?_ ?_ ?_ (p := []) rfl h
  · simpa using this
  · intro l s h
    simp only [http, open', readOks_snoc, Did.isReadOk]
    cases w.responses s.opens <;> simp [h]
  · intro l s h
    simp only [http, read, readOks_snoc]
    cases s.response with
    | none => simpa [Did.isReadOk] using h
    | some r =>
      cases r with
      | nil => simpa [piece, Did.isReadOk] using h
      | cons x r => cases x <;> simpa [piece, Did.isReadOk] using h
  · intro l s h; simpa [http, readOks_snoc, Did.isReadOk] using h

/-- **C145**, the times: if decoding never raises, the clock is looked at once for each answer, so the `n`-th answer of the whole life of the reader has the
`n`-th reading of the clock. -/
theorem C145_time (h : (http w fun p => .ok (f p)).Hist new (a ++ [.read (.ok (some v))]) s) : v.1 = w.clock (readOks a) := by
  obtain ⟨m, h1, h2⟩ := h.split
  have hr := h2.read_inv.1
  rw [← ticks_inv h1]
  simp only [http, read, piece] at hr
  cases hm : m.response with
  | none => rw [hm] at hr; simp at hr
  | some r =>
    rw [hm] at hr
    cases r with
    | nil => simp at hr; rw [hr]
    | cons x r => cases x <;> simp at hr; rw [hr]
end

/-- A response that breaks off and goes on: open, a piece, an exception, a piece, close, a read that raises. -/
example : ∃ s, (http (T := Nat) (B := Char) ⟨fun _ => .ok [.ok ['a'], .error .runtimeError, .ok ['b']], fun n => 10 + n⟩ (fun p => .ok p.length)).Hist new
    ([] ++ .opened (.ok ()) :: [.read (.ok (some (10, 1))), .read (.error .runtimeError)] ++
      [.read (.ok (some (11, 1))), .closed (.ok ()), .read (.error .attributeError)]) s :=
  ⟨_, .open' (.read (.read (.read (.close (.read (.nil _))))))⟩

end HttpSrc

namespace SimplySrc
variable {W X D K I : Type} {f : Fns W X D K I} {w : W} {s s' : St W X} {l a b : List (Did (SItem D))}

/-- What the user's functions do to the world in these uses of them, one after the other. -/
def replay (f : Fns W X D K I) (w : W) : List (Use X) → W
  | [] => w
  | .opened _ :: l | .openRaised :: l => replay f (match f.openStream with | some g => (g w).2 | none => w) l
  | .read x :: l => replay f (f.readStream x w).2 l
  | .closed x :: l => replay f (match f.closeStream with | some g => (g x w).2 | none => w) l

theorem replay_append (u v : List (Use X)) (w : W) : replay f w (u ++ v) = replay f (replay f w u) v := by
  induction u generalizing w with
  | nil => rfl
  | cons x u ih => cases x <;> exact ih _

/-- The instance got last, `None` if there was none. -/
def lastGot (u : List (Use X)) : Option X := (openedOf u).getLast?.getD none

/-- The calls of the source reader's methods, in the order of the uses. -/
def Match : List (Did (SItem D)) → List (Use X) → Prop
  | [], [] => True
  | .opened (.ok _) :: l, .opened _ :: u => Match l u
  | .opened (.error _) :: l, .openRaised :: u => Match l u
  | .read _ :: l, .read _ :: u => Match l u
  | .closed _ :: l, .closed _ :: u => Match l u
  | _, _ => False

theorem match_append : ∀ {l l' : List (Did (SItem D))} {u u' : List (Use X)}, Match l u → Match l' u' → Match (l ++ l') (u ++ u')
  | [], _, [], _, _, h => h
  | .opened (.ok _) :: l, _, .opened _ :: u, _, h, h' => match_append (l := l) (u := u) h h'
  | .opened (.error _) :: l, _, .openRaised :: u, _, h, h' => match_append (l := l) (u := u) h h'
  | .read _ :: l, _, .read _ :: u, _, h, h' => match_append (l := l) (u := u) h h'
  | .closed _ :: l, _, .closed _ :: u, _, h, h' => match_append (l := l) (u := u) h h'

/-- How an instance must be used: the one given is the one got last. -/
def GivenLast (u : List (Use X)) : Prop := ∀ pre x post, (u = pre ++ .read x :: post ∨ u = pre ++ .closed x :: post) → x = lastGot pre

structure Inv (f : Fns W X D K I) (w : W) (l : List (Did (SItem D))) (s : St W X) : Prop where
  world : s.world = replay f w s.uses
  inst : s.inst = lastGot s.uses
  given : GivenLast s.uses
  match' : Match l s.uses
  idx : s.readIdx = readOks (sinceOpen l)

theorem GivenLast.snoc {u : List (Use X)} (h : GivenLast u) {x : Use X} (hx : ∀ y, x = .read y ∨ x = .closed y → y = lastGot u) : GivenLast (u ++ [x]) := by
  intro pre y post hy
  rcases List.eq_nil_or_concat post with rfl | ⟨post, z, rfl⟩
  · rcases hy with hy | hy
    · obtain ⟨rfl, h2⟩ := List.append_inj' hy rfl
      simp at h2
      exact hx y (.inl h2)
    · obtain ⟨rfl, h2⟩ := List.append_inj' hy rfl
      simp at h2
      exact hx y (.inr h2)
  · rcases hy with hy | hy
    · rw [List.concat_eq_append, ← List.cons_append, ← List.append_assoc] at hy
      exact h pre y post (.inl (List.append_inj' hy rfl).1)
    · rw [List.concat_eq_append, ← List.cons_append, ← List.append_assoc] at hy
      exact h pre y post (.inr (List.append_inj' hy rfl).1)

theorem inv (h : (simply f).Hist (new w) l s) : Inv f w l s := by
  have h0 : Inv f w [] (new w) := ⟨rfl, rfl, by intro pre x post h; simp [new] at h, trivial, rfl⟩
  have := SrcObj.Hist.ind (o := simply f) (P := Inv f w) ?_ ?_ ?_ (p := []) h0 h
  · simpa using this
  · rintro l s ⟨h1, h2, h3, h4, h5⟩
    simp only [simply, open']
    cases hg : f.openStream with
    | none =>
      refine ⟨?_, ?_, h3.snoc (by simp), match_append h4 (by simp [Match]), ?_⟩
      · simp only [replay_append, replay, hg]; exact h1
      · simp only [lastGot, openedOf, List.filterMap_append, List.filterMap_cons, List.filterMap_nil]; simp
      · simp [sinceOpen_snoc, Did.isOpen, readOks]
    | some g =>
      cases hr : g s.world with
      | mk r w' =>
        cases r with
        | ok x =>
          simp only [hr]
          refine ⟨?_, ?_, h3.snoc (by simp), match_append h4 (by simp [Match]), ?_⟩
          · simp only [replay_append, replay, hg, ← h1, hr]
          · simp only [lastGot, openedOf, List.filterMap_append, List.filterMap_cons, List.filterMap_nil]; simp
          · simp [sinceOpen_snoc, Did.isOpen, readOks]
        | error e =>
          simp only [hr]
          refine ⟨?_, ?_, h3.snoc (by simp), match_append h4 (by simp [Match]), ?_⟩
          · simp only [replay_append, replay, hg, ← h1, hr]
          · rw [h2]; simp only [lastGot, openedOf, List.filterMap_append, List.filterMap_cons, List.filterMap_nil]; simp
          · simp [sinceOpen_snoc, Did.isOpen, readOks]
  · rintro l s ⟨h1, h2, h3, h4, h5⟩
    simp only [simply, read]
    cases hr : f.readStream s.inst s.world with
    | mk r w' =>
      cases r <;> refine ⟨?_, ?_, h3.snoc (by simp [h2]), match_append h4 (by simp [Match]), ?_⟩
      all_goals first
        | (simp only [replay_append, replay, ← h1, hr]; done)
        | (rw [h2]; simp only [lastGot, openedOf, List.filterMap_append, List.filterMap_cons, List.filterMap_nil]; simp; done)
        | (simp [sinceOpen_snoc, Did.isOpen, readOks_snoc, Did.isReadOk, h5]; done)
  · rintro l s ⟨h1, h2, h3, h4, h5⟩
    simp only [simply, close]
    cases hg : f.closeStream with
    | none =>
      refine ⟨?_, ?_, h3.snoc (by simp [h2]), match_append h4 (by simp [Match]), ?_⟩
      · simp only [replay_append, replay, hg]; exact h1
      · rw [h2]; simp only [lastGot, openedOf, List.filterMap_append, List.filterMap_cons, List.filterMap_nil]; simp
      · simp [sinceOpen_snoc, Did.isOpen, readOks_snoc, Did.isReadOk, h5]
    | some g =>
      cases hr : g s.inst s.world with
      | mk r w' =>
        refine ⟨?_, ?_, h3.snoc (by simp [h2]), match_append h4 (by simp [Match]), ?_⟩
        · simp only [replay_append, replay, hg, ← h1, hr]
        · rw [h2]; simp only [lastGot, openedOf, List.filterMap_append, List.filterMap_cons, List.filterMap_nil]; simp
        · simp [sinceOpen_snoc, Did.isOpen, readOks_snoc, Did.isReadOk, h5]

/-- **C146**, the user's functions: each method called calls the corresponding one once, in the same order, `read_stream` and `close_stream` with the instance
that `open_stream` returned last (`None` before), also after `close()`; nothing else acts on the world. -/
theorem C146_functions (h : (simply f).Hist (new w) l s) : Match l s.uses ∧ GivenLast s.uses ∧ s.world = replay f w s.uses :=
  ⟨(inv h).match', (inv h).given, (inv h).world⟩

/-- **C146**, what `read()` returns: the outcome of `read_stream` on that instance; with `enumerate_data`, the data with the number of `read()` answered since
the last `open()`, also if that `open()` raised and if there is no `open_stream`; else the data as they are. -/
theorem C146_read (h : (simply f).Hist (new w) a s) (hr : (simply f).Hist (new w) (a ++ [.read r]) s') :
    r = match (f.readStream (lastGot s.uses) s.world).1 with
      | .error e => .error e
      | .ok d => .ok (if f.enumerate then some (.pair (readOks (sinceOpen a)) d) else d.map .raw) := by
  obtain ⟨m, h1, h2⟩ := hr.split
  have hm : m = s := by
    have det : ∀ {l : List (Did (SItem D))} {x y z : St W X}, (simply f).Hist x l y → (simply f).Hist x l z → y = z := by
      intro l x y z hy
      induction hy generalizing z with
      | nil => intro hz; cases hz; rfl
      | open' _ ih => intro hz; exact ih hz.open_inv.2
      | read _ ih => intro hz; exact ih hz.read_inv.2
      | close _ ih => intro hz; exact ih hz.close_inv.2
    exact det h1 h
  subst hm
  rw [h2.read_inv.1, ← (inv h).inst, ← (inv h).idx]
  simp only [simply, read]
  cases f.readStream m.inst m.world with
  | mk r w' => cases r <;> simp [simpRead]

/-- The numbers start again at each `open()`, also without `open_stream`: reading a list given once, item by item. -/
example : ∃ s, (simply (W := List Char) (X := Unit) (K := Nat) (I := Unit)
      ⟨none, fun _ w => (.ok w.head?, w.tail), none, none, fun _ => (), fun _ => .ok 0, true⟩).Hist (new ['a', 'b', 'c'])
    [.opened (.ok ()), .read (.ok (some (.pair 0 (some 'a')))), .read (.ok (some (.pair 1 (some 'b')))), .closed (.ok ()),
      .opened (.ok ()), .read (.ok (some (.pair 0 (some 'c')))), .read (.ok (some (.pair 1 none)))] s :=
  ⟨_, .open' (.read (.read (.close (.open' (.read (.read (.nil _)))))))⟩

/-! The file example of the documentation. -/
section
variable {D : Type} {ls : List D} {s s' : St Files Nat} {l a b : List (Did (SItem D))}

theorem file_never (h : (simply (lines ls)).Hist s l s') (hf : s.inst = none) (hl : NoOpenOk l) : s'.inst = none := by
  induction h with
  | nil => exact hf
  | @open' s s' l h ih => exact absurd (hl _ (List.mem_cons_self ..)) (by simp [Did.isOpenOk, simply, open', lines])
  | @read s s' l h ih => exact ih (by simp [simply, read, lines, hf]) fun x hx => hl x (by simp [hx])
  | @close s s' l h ih => exact ih (by simp [simply, close, lines, hf]) fun x hx => hl x (by simp [hx])

theorem file_shut (h : (simply (lines ls)).Hist s l s') {x : Nat} (hi : s.inst = some x) (hf : s.world.pos x = none) (hl : NoOpenOk l) :
    s'.inst = some x ∧ s'.world.pos x = none := by
  induction h with
  | nil => exact ⟨hi, hf⟩
  | @open' s s' l h ih => exact absurd (hl _ (List.mem_cons_self ..)) (by simp [Did.isOpenOk, simply, open', lines])
  | @read s s' l h ih => exact ih (by simp [simply, read, lines, hi, hf]) (by simp [simply, read, lines, hi, hf]) fun x hx => hl x (by simp [hx])
  | @close s s' l h ih => exact ih (by simp [simply, close, lines, hi]) (by simp [simply, close, lines, hi]) fun x hx => hl x (by simp [hx])

theorem file_reading (h : (simply (lines ls)).Hist s l s') {x p : Nat} (hi : s.inst = some x) (hf : s.world.pos x = some p) (hl : NoOpenOk l)
    (hc : NoClose l) : s'.inst = some x ∧ s'.world.pos x = some (p + reads l) := by
  induction h generalizing p with
  | nil => exact ⟨hi, by simpa [reads] using hf⟩
  | @open' s s' l h ih => exact absurd (hl _ (List.mem_cons_self ..)) (by simp [Did.isOpenOk, simply, open', lines])
  | @read s s' l h ih =>
    have := ih (p := p + 1) (by simp [simply, read, lines, hi, hf]) (by simp [simply, read, lines, hi, hf]) (fun x hx => hl x (by simp [hx]))
      fun x hx => hc x (by simp [hx])
    refine ⟨this.1, this.2.trans ?_⟩
    simp only [reads, List.countP_cons, Did.isRead, if_true]
    congr 1
    omega
  | @close s s' l h ih => exact absurd (hc _ (List.mem_cons_self ..)) (by simp [Did.isClose])

/-- **C146**, the documented file example before the first `open()`: `read()` raises `TypeError` (`next(None, None)`), `close()` `AttributeError`. `open()` never
raises. -/
theorem C146_file_before (h : (simply (lines ls)).Hist (new Files.none) (a ++ b) s) :
    (∀ r l, b = .opened r :: l → r = .ok ()) ∧ (NoOpenOk a → (∀ r l, b = .read r :: l → r = .error .typeError) ∧
      ∀ r l, b = .closed r :: l → r = .error .attributeError) := by
  obtain ⟨m, h1, h2⟩ := h.split
  refine ⟨?_, fun ha => ?_⟩
  · rintro r l rfl; rw [h2.open_inv.1]; simp [simply, open', lines]
  have hf := file_never h1 rfl ha
  constructor <;> rintro r l rfl
  · rw [h2.read_inv.1]; simp [simply, read, lines, hf]
  · rw [h2.close_inv.1]; simp [simply, close, lines, hf]

/-- **C146**, the file example while open: the `k`-th `read()` since the last `open()` returns `(k, line k)`, with `None` for the line beyond the end. -/
theorem C146_file_open (h : (simply (lines ls)).Hist (new Files.none) (a ++ .opened (.ok ()) :: b ++ [.read r]) s) (hb : NoOpenOk b) (hc : NoClose b) :
    r = .ok (some (.pair (reads b) ls[reads b]?)) := by
  obtain ⟨m, h1, h2⟩ := h.split
  have hidx := (inv h1).idx
  obtain ⟨q, h3, h4⟩ := h1.split
  have h5 := h4.open_inv.2
  obtain ⟨e1, e2⟩ := file_reading h5 (x := q.world.opened) (p := 0) (by simp [simply, open', lines]) (by simp [simply, open', lines]) hb hc
  have hn : m.readIdx = reads b := by
    have key : ∀ {l : List (Did (SItem D))} {s s' : St Files Nat} {x p : Nat}, (simply (lines ls)).Hist s l s' → s.inst = some x →
        s.world.pos x = some p → NoOpenOk l → NoClose l → s'.readIdx = s.readIdx + reads l := by
      intro l s s' x p h
      induction h generalizing p with
      | nil => intros; simp [reads]
      | open' h ih => intro _ _ hl _; exact absurd (hl _ (List.mem_cons_self ..)) (by simp [Did.isOpenOk, simply, open', lines])
      | @read s s' l h ih =>
        intro hi hf hl hc
        rw [ih (p := p + 1) (by simp [simply, read, lines, hi, hf]) (by simp [simply, read, lines, hi, hf]) (fun x hx => hl x (by simp [hx]))
          fun x hx => hc x (by simp [hx])]
        simp only [simply, read, lines, hi, hf, reads, List.countP_cons, Did.isRead, if_true]
        omega
      | close h ih => intro _ _ _ hc; exact absurd (hc _ (List.mem_cons_self ..)) (by simp [Did.isClose])
    have := key h5 (x := q.world.opened) (p := 0) (by simp [simply, open', lines]) (by simp [simply, open', lines]) hb hc
    rw [this]; simp [simply, open', lines]
  rw [h2.read_inv.1]
  rw [Nat.zero_add] at e2
  simp [simply, read, lines, e1, e2, simpRead, hn]

/-- **C146**, the file example after `close()` of the open file, until the next `open()`: `read()` raises `ValueError`, closing again does nothing. -/
theorem C146_file_closed (h : (simply (lines ls)).Hist (new Files.none) (a ++ .closed (.ok ()) :: b ++ l) s) (hb : NoOpenOk b) :
    (∀ r l', l = .read r :: l' → r = .error .valueError) ∧ (∀ r l', l = .closed r :: l' → r = .ok ()) := by
  obtain ⟨m, h1, h2⟩ := h.split
  obtain ⟨q, h3, h4⟩ := h1.split
  obtain ⟨h5, h6⟩ := h4.close_inv
  cases hq : q.inst with
  | none => simp [simply, close, lines, hq] at h5
  | some x =>
    obtain ⟨e1, e2⟩ := file_shut h6 (x := x) (by simp [simply, close, lines, hq]) (by simp [simply, close, lines, hq]) hb
    constructor <;> rintro r l' rfl
    · rw [h2.read_inv.1]; simp [simply, read, lines, e1, e2]
    · rw [h2.close_inv.1]; simp [simply, close, lines, e1]

/-- A file of one line: read, opened and read to the end and beyond, closed, read. -/
example : ∃ s, (simply (lines ['a'])).Hist (new Files.none)
    ([.read (.error .typeError)] ++ .opened (.ok ()) :: [.read (.ok (some (.pair 0 (some 'a'))))] ++
      [.read (.ok (some (.pair 1 none))), .closed (.ok ()), .read (.error .valueError)]) s :=
  ⟨_, .read (.open' (.read (.read (.close (.read (.nil _))))))⟩

end
end SimplySrc

namespace Counter
variable {start stop : Int} {s s' : St} {l a b : List (Did (List Char))}

theorem gone (h : (counter start stop).Hist s l s') (hf : s.iter = none) (hl : NoOpenOk l) : s'.iter = none := by
  induction h with
  | nil => exact hf
  | @open' s s' l h ih => exact absurd (hl _ (List.mem_cons_self ..)) (by simp [Did.isOpenOk, counter])
  | @read s s' l h ih => exact ih (by simp [counter, read, hf]) fun x hx => hl x (by simp [hx])
  | @close s s' l h ih => exact ih (by simp [counter]) fun x hx => hl x (by simp [hx])

theorem counting (h : (counter start stop).Hist s l s') {v : Int} (hs : start < stop) (hf : s.iter = some v) (hv : v ≤ stop) (hl : NoOpenOk l) (hc : NoClose l) :
    s'.iter = some (min (v + reads l) stop) := by
  induction h generalizing v with
  | nil => simp [reads, hf]; omega
  | @open' s s' l h ih => exact absurd (hl _ (List.mem_cons_self ..)) (by simp [Did.isOpenOk, counter])
  | @read s s' l h ih =>
    by_cases hlt : v < stop
    · rw [ih (v := v + 1) (by simp [counter, read, hf, hlt]) (by omega) (fun x hx => hl x (by simp [hx])) fun x hx => hc x (by simp [hx])]
      simp only [reads, List.countP_cons, Did.isRead, if_true, Option.some.injEq]
      push_cast
      rw [show v + ((List.countP Did.isRead l : Int) + 1) = v + 1 + List.countP Did.isRead l by omega]
    · rw [ih (v := v) (by simp [counter, read, hf, hlt]) (by omega) (fun x hx => hl x (by simp [hx])) fun x hx => hc x (by simp [hx])]
      simp only [reads, List.countP_cons, Did.isRead, if_true, Option.some.injEq]
      push_cast
      omega
  | @close s s' l h ih => exact absurd (hc _ (List.mem_cons_self ..)) (by simp [Did.isClose])

/-- **C147**, not open: before the first `open()`, and after a `close()` until the next one, `read()` raises `TypeError`. -/
theorem C147_not_open (h : (counter start stop).Hist new (a ++ [.read r]) s)
    (ha : NoOpenOk a ∨ ∃ a1 c a2, a = a1 ++ .closed c :: a2 ∧ NoOpenOk a2) : r = .error .typeError := by
  obtain ⟨m, h1, h2⟩ := h.split
  have hf : m.iter = none := by
    rcases ha with ha | ⟨a1, c, a2, rfl, ha⟩
    · exact gone h1 rfl ha
    · obtain ⟨q, h3, h4⟩ := h1.split
      exact gone h4.close_inv.2 rfl ha
  rw [h2.read_inv.1]; simp [counter, read, hf]

/-- **C147**, open: the `k`-th `read()` since the last `open()` returns `s` followed by `start + k` in decimal, `None` from `stop` on. -/
theorem C147_open (hs : start < stop) (h : (counter start stop).Hist new (a ++ .opened (.ok ()) :: b ++ [.read r]) s) (hb : NoOpenOk b) (hc : NoClose b) :
    r = .ok (if start + reads b < stop then some ('s' :: pyStr (start + reads b)) else none) := by
  obtain ⟨m, h1, h2⟩ := h.split
  obtain ⟨q, h3, h4⟩ := h1.split
  have hf := counting h4.open_inv.2 (v := start) hs rfl (by omega) hb hc
  rw [h2.read_inv.1]
  simp only [counter, read, hf]
  by_cases hlt : start + reads b < stop
  · rw [min_eq_left (by omega), if_pos hlt, if_pos hlt]; rfl
  · rw [min_eq_right (by omega), if_neg (by omega), if_neg hlt]

/-- **C147**, `open()` and `close()` never raise, in any order, and `open_count` counts the calls of `open()`. -/
theorem C147_calm (h : (counter start stop).Hist new l s) : (∀ r, .opened r ∈ l → r = .ok ()) ∧ (∀ r, .closed r ∈ l → r = .ok ()) ∧
    (counter start stop).info s = .ok ⟨start, stop, opens l⟩ := by
  have := SrcObj.Hist.ind (o := counter start stop) (P := fun l s => (∀ r, .opened r ∈ l → r = .ok ()) ∧ (∀ r, .closed r ∈ l → r = .ok ()) ∧
    s.openCount = opens l) ?_ ?_ ?_ (p := []) (by simp [new, opens]) h
  · obtain ⟨h1, h2, h3⟩ := this
    refine ⟨by simpa using h1, by simpa using h2, ?_⟩
    simp only [List.nil_append] at h3
    simp [counter, h3]
  · rintro l s ⟨h1, h2, h3⟩
    refine ⟨?_, ?_, ?_⟩
    · intro r hr; rcases List.mem_append.1 hr with hr | hr
      · exact h1 r hr
      · simpa [counter] using hr
    · intro r hr; rcases List.mem_append.1 hr with hr | hr
      · exact h2 r hr
      · simp at hr
    · simp [counter, opens_snoc, Did.isOpen, h3]
  · rintro l s ⟨h1, h2, h3⟩
    refine ⟨by simpa using h1, by simpa using h2, ?_⟩
    simp only [counter, read, opens_snoc, Did.isOpen]
    split
    · simpa using h3
    · split <;> simpa using h3
  · rintro l s ⟨h1, h2, h3⟩
    refine ⟨by simpa using h1, ?_, ?_⟩
    · intro r hr; rcases List.mem_append.1 hr with hr | hr
      · exact h2 r hr
      · simpa [counter] using hr
    · simp [counter, opens_snoc, Did.isOpen, h3]

example : ∃ s, (counter 9 11).Hist new
    ([.closed (.ok ()), .read (.error .typeError)] ++ .opened (.ok ()) :: [.read (.ok (some ['s', '9'])), .read (.ok (some ['s', '1', '0']))] ++
      [.read (.ok none), .closed (.ok ()), .read (.error .typeError)]) s :=
  ⟨_, .close (.read (.open' (.read (.read (.read (.close (.read (.nil _))))))))⟩

end Counter

end S2P
