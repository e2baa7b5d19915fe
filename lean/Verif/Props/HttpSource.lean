import Verif.Model.HttpSource
import Verif.Proofs.Calm
/-
C71: a stream buffer over an HTTPResponseReader.
-/
namespace S2P
open Spec
namespace HttpSrc
section
variable {T B E : Type} [LinearOrder T] {w : Web T B} {f : List B → List E}

/-- What the reader gives, after the `open()` that got `pieces`, to the `j`-th `read()`. -/
def reads (w : Web T B) (f : List B → List E) (pieces : List (List B)) (ticks n : Nat) : List (T × List E) :=
  (List.range n).map fun (j : Nat) => (w.clock (ticks + j), f (pieces[j]?.getD []))

omit [LinearOrder T] in
theorem answers_eq (n : Nat) : ∀ (pieces : List (List B)) (opens ticks : Nat), answers (read w fun b => .ok (f b)) ⟨some (pieces.map .ok), opens, ticks⟩ n =
    (reads w f pieces ticks n).map fun v => .ok (some v) := by
  induction n with
  | zero => intros; rfl
  | succ n ih =>
    intro pieces opens ticks
    have hr : reads w f pieces ticks (n + 1) = (w.clock ticks, f (pieces[0]?.getD [])) :: reads w f pieces.tail (ticks + 1) n := by
      simp only [reads, List.range_succ_eq_map, List.map_cons, List.map_map]
      congr 1
      refine List.map_congr_left fun j _ => ?_
      simp only [Function.comp, Nat.succ_eq_add_one, List.getElem?_tail]
      rw [show ticks + (j + 1) = ticks + 1 + j by omega]
    rw [hr, answers]
    cases pieces with
    | nil => simp only [read, List.map_nil, piece, List.map_cons]; exact congrArg _ (ih [] opens (ticks + 1))
    | cons p l => simp only [read, List.map_cons, piece]; exact congrArg _ (ih l opens (ticks + 1))

omit [LinearOrder T] in
theorem data_eq (n : Nat) (pieces : List (List B)) (opens ticks : Nat) :
    dataOf (answers (read w fun b => .ok (f b)) ⟨some (pieces.map .ok), opens, ticks⟩ n) = reads w f pieces ticks n := by
  rw [answers_eq]
  simp only [dataOf, List.filterMap_map]
  exact List.filterMap_some

omit [LinearOrder T] in
/-- Put together, the data of `n` reads are the first `n` pieces. -/
theorem reads_join (h0 : f [] = []) (ha : ∀ a b, f (a ++ b) = f a ++ f b) (pieces : List (List B)) (ticks n : Nat) :
    (reads w f pieces ticks n).flatMap (·.2) = f (pieces.take n).flatten := by
  induction n with
  | zero => simp [reads, h0]
  | succ n ih =>
    have : reads w f pieces ticks (n + 1) = reads w f pieces ticks n ++ [(w.clock (ticks + n), f (pieces[n]?.getD []))] := by
      simp [reads, List.range_succ]
    rw [this, List.flatMap_append, ih, List.take_add_one, List.flatten_append, ha]
    congr 1
    cases h : pieces[n]? <;> simp [h0]

end

section
variable {T B E : Type} [LinearOrder T] [LinearOrder (List E)] {w : Web T B} {f : List B → List E}

/-- A web in which no read of a response raises. -/
def Smooth (w : Web T B) : Prop := ∀ k l, w.responses k = .ok l → ∃ pieces : List (List B), l = pieces.map .ok

/-- A clock that moves on between two looks at it. -/
def Ticks (w : Web T B) : Prop := ∀ n, w.clock n < w.clock (n + 1)

omit [LinearOrder (List E)] in
theorem Ticks.lt (h : Ticks w) {i j : Nat} (hij : i < j) : w.clock i < w.clock j := by
  induction j with
  | zero => omega
  | succ j ih =>
    by_cases hj : i = j
    · subst hj; exact h i
    · exact lt_trans (ih (by omega)) (h j)

omit [LinearOrder (List E)] [LinearOrder T] in
theorem opened_eq (hs : Smooth w) {x st : St B} (h : open' w x = (.ok (), st)) :
    ∃ pieces : List (List B), w.responses x.opens = .ok (pieces.map .ok) ∧ st = ⟨some (pieces.map .ok), x.opens + 1, x.ticks⟩ := by
  simp only [open'] at h
  split at h
  · simp at h
  · rename_i l hl
    simp only [Prod.mk.injEq, true_and] at h
    obtain ⟨pieces, rfl⟩ := hs _ _ hl
    exact ⟨pieces, hl, h.symm⟩

theorem orderly (hs : Smooth w) (ht : Ticks w) : ObjSB.Orderly (http w fun b => .ok (f b)) := by
  refine ⟨?_, fun x st n v _ _ => ⟨_, rfl⟩, ?_⟩
  · intro x st n e h
    obtain ⟨pieces, -, rfl⟩ := opened_eq hs h
    rw [show (http w fun b => .ok (f b)).read = read w fun b => .ok (f b) from rfl, answers_eq]
    simp
  · intro x st n h
    obtain ⟨pieces, -, rfl⟩ := opened_eq hs h
    rw [show (http w fun b => .ok (f b)).read = read w fun b => .ok (f b) from rfl, data_eq, reads, List.pairwise_map]
    refine List.pairwise_lt_range.imp fun {i j} hij k l hk hl => ?_
    simp only [http, Except.ok.injEq] at hk hl
    subst hk hl
    exact Prod.Lex.toLex_lt_toLex.2 (.inl (ht.lt (by omega)))

variable [BEq (T × List E)] [ReflBEq (T × List E)] {cfg : SBCfg (T ×ₗ List E) (T × List E)}
  {xs : List (ObjAct (T ×ₗ List E) (T × List E) Nat)} {s s' : ObjSB (St B) (T ×ₗ List E) (T × List E) Nat} {x : ObjAct (T ×ₗ List E) (T × List E) Nat}
  {decode : List B → Py (List E)}

/-- How many responses were asked for. -/
structure Opens (s : ObjSB (St B) (T ×ₗ List E) (T × List E) Nat) : Prop where
  count : s.st.opens + (if s.sb.start = some .mkEvt ∨ s.sb.start = some .opening then 1 else 0) = s.sb.n
  at' : ∀ t st, s.opened t = some st → st.opens = t + 1

omit [LinearOrder T] [LinearOrder (List E)] [BEq (T × List E)] [ReflBEq (T × List E)] in
theorem read_opens (s : St B) : (read w decode s).2.opens = s.opens := by
  unfold read; split <;> try rfl
  all_goals (unfold piece; dsimp only; split <;> rfl)

omit [LinearOrder T] [LinearOrder (List E)] [BEq (T × List E)] [ReflBEq (T × List E)] in
theorem open_opens (x : St B) : (open' w x).2.opens = x.opens + 1 := by unfold open'; split <;> rfl

omit [ReflBEq (T × List E)] in
theorem Opens.step (h : Opens s) (hb : ObjSB.Below (http w decode) cfg s s' x) : Opens s' := by
  obtain ⟨h1, h2⟩ := h
  have h3 : ∀ t st, s'.opened t = some st → st.opens = t + 1 := by
    intro t st ht
    rcases ObjSB.opened_step hb t st ht with ht | ⟨-, k1, k2, k3⟩
    · exact h2 t st ht
    · have := open_opens (w := w) s.st
      rw [show open' w s.st = _ from k3] at this
      rw [k2] at h1
      simp at h1 this ⊢
      omega
  refine ⟨?_, h3⟩
  cases hb with
  | other a hx ha hk hr hs e1 e2 =>
    rw [e1]
    refine ObjSB.opens_count hs _ ⟨?_, ?_⟩ h1 <;> (rintro rfl; simp [SBAct.noCall] at ha)
  | openOk hx hs h0 e2 =>
    have hop := open_opens (w := w) s.st
    rw [show open' w s.st = _ from h0] at hop
    dsimp only at hop
    have hst := SB.step_to hs
    clear hs
    generalize s'.sb = y at hst
    cases hst
    rename_i hst
    rw [hst] at h1
    simp [SB.say] at h1 ⊢
    omega
  | openRaise hx e hs h0 e2 =>
    have hop := open_opens (w := w) s.st
    rw [show open' w s.st = _ from h0] at hop
    dsimp only at hop
    have hst := SB.step_to hs
    clear hs
    generalize s'.sb = y at hst
    cases hst
    rename_i hst
    rw [hst] at h1
    simp [SB.say] at h1 ⊢
    omega
  | bufOk hx i hs h0 e1 e2 => rw [e1]; exact ObjSB.opens_count hs _ (by simp) h1
  | bufRaise hx e hs h0 e1 e2 => rw [e1]; exact ObjSB.opens_count hs _ (by simp) h1
  | readOk t hx r hs h0 e2 =>
    have := read_opens (w := w) (decode := decode) s.st
    rw [show read w decode s.st = _ from h0] at this
    dsimp only at this
    rw [this]; exact ObjSB.opens_count hs _ (by simp) h1
  | readRaise t hx e hs h0 e2 =>
    have := read_opens (w := w) (decode := decode) s.st
    rw [show read w decode s.st = _ from h0] at this
    dsimp only at this
    rw [this]; exact ObjSB.opens_count hs _ (by simp) h1
  | close t hx ok hs h0 hok e2 =>
    have : s'.st.opens = s.st.opens := by rw [← h0]; rfl
    rw [this]; exact ObjSB.opens_count hs _ (by simp) h1

/-- **C71** an HTTP stream does not die: no read of a response raises, the clock moves on between two reads, the decoding works piece by piece, and
`start()` is only called when no thread of an earlier session is alive. Needed: `C71_…_needed`. -/
theorem C71_never_dies (hs : Smooth w) (ht : Ticks w) (hf : ObjSB.Fits (http w fun b => .ok (f b)) cfg) (hc : cfg.maxlen ≠ none ∨ cfg.autoDrop = true)
    (he : (ObjSB.init new).exec (http w fun b => .ok (f b)) cfg xs = some s)
    (hcalm : (ObjSB.init new : ObjSB (St B) (T ×ₗ List E) (T × List E) Nat).Calm (http w fun b => .ok (f b)) cfg xs) : ∀ e ∈ s.sb.log, isDeath e = false :=
  ObjSB.C64_orderly_never_dies_partial (orderly hs ht) hf hc he (ObjSB.calm_settled he hcalm)

/-- **C71** and what a consumer of session `b` gets is the body of the `b`-th response, in an unbounded buffer: received, then readable, then in the thread's
hands are the pieces of that response from the first, each once, in order; put together they are the decoded beginning of the body, and the whole body once
an empty piece is among them (if the response gives no empty pieces before its end). -/
theorem C71_body (hs : Smooth w) (ht : Ticks w) (h0 : f [] = []) (happ : ∀ a b, f (a ++ b) = f a ++ f b) (hf : ObjSB.Fits (http w fun b => .ok (f b)) cfg)
    (hm : cfg.maxlen = none) (hd : cfg.autoDrop = true) (b i : Nat) (hpk : (cfg.rdCfg i).peek = false)
    (he : (ObjSB.init new).exec (http w fun b => .ok (f b)) cfg xs = some s)
    (hcalm : (ObjSB.init new : ObjSB (St B) (T ×ₗ List E) (T × List E) Nat).Calm (http w fun b => .ok (f b)) cfg xs)
    (hu : ∀ a, .other a ∈ xs → SB.OneUser b i a) (c : Cons (T ×ₗ List E) (T × List E)) (hv : s.sb.view b = some c) :
    ∃ pieces : List (List B), w.responses b = .ok (pieces.map .ok) ∧
      (∃ n, (received c i ++ unreadOf c.ch i ++ (s.sb.thr b).inHand).map (·.2) = (List.range n).map fun (j : Nat) => f (pieces[j]?.getD [])) ∧
      f pieces.flatten = (received c i ++ unreadOf c.ch i ++ (s.sb.thr b).inHand).flatMap (·.2) ++
        f (pieces.drop (received c i ++ unreadOf c.ch i ++ (s.sb.thr b).inHand).length).flatten ∧
      ((∀ p ∈ pieces, f p ≠ []) → (∃ v ∈ received c i ++ unreadOf c.ch i ++ (s.sb.thr b).inHand, v.2 = []) →
        (received c i ++ unreadOf c.ch i ++ (s.sb.thr b).inHand).flatMap (·.2) = f pieces.flatten) := by
  have hset := ObjSB.calm_settled he hcalm
  obtain ⟨bs, h1, h2, h3⟩ := ObjSB.real_one he hset hu
  have hall := ObjSB.C64_orderly_all_stored_partial (orderly hs ht) hf he hset b
  rw [← SB.C63_unbounded hm hd b i hpk h3 h1 c hv] at hall
  have h := ObjSB.acc he hset
  obtain ⟨x, hx, -⟩ := Option.map_eq_some_iff.1 hv
  obtain ⟨st0, hst0⟩ : ∃ st0, s.opened b = some st0 :=
    Option.isSome_iff_exists.1 (ObjSB.buf_opened he hset b (by rw [hx]; rfl))
  obtain ⟨x0, hx0⟩ := h.from' b st0 hst0
  have ho : Opens s := by
    refine ObjSB.exec_ind_settled (P := fun s : ObjSB (St B) (T ×ₗ List E) (T × List E) Nat => Opens s) (fun _ _ _ _ h hs _ => h.step (ObjSB.below hs)) ⟨rfl, ?_⟩ he hset
    intro t st h; simp [ObjSB.init] at h
  obtain ⟨pieces, hp, rfl⟩ := opened_eq hs hx0
  have hb : x0.opens = b := by have := ho.at' b _ hst0; simpa using this
  rw [hb] at hp
  have key : received c i ++ unreadOf c.ch i ++ (s.sb.thr b).inHand = reads w f pieces x0.ticks (answered b s.sb.log).length := by
    rw [hall, dataRead_eq, h.knows.seen b _ hst0]
    simp only [answers_length]
    exact data_eq _ _ _ _
  rw [key]
  generalize (answered b s.sb.log).length = n
  refine ⟨pieces, hp, ⟨n, ?_⟩, ?_, ?_⟩
  · simp [reads]
  · rw [reads_join h0 happ, ← happ, show (reads w f pieces x0.ticks n).length = n by simp [reads], ← List.flatten_append, List.take_append_drop]
  · rintro hne ⟨v, hv, hv0⟩
    rw [reads_join h0 happ]
    obtain ⟨j, hj, rfl⟩ := List.mem_map.1 hv
    have hjn := List.mem_range.1 hj
    have : pieces.length ≤ j := by
      by_contra hc
      have hlt : j < pieces.length := by omega
      simp only [List.getElem?_eq_getElem hlt, Option.getD_some] at hv0
      exact hne _ (List.getElem_mem hlt) hv0
    rw [List.take_of_length_le (by omega)]

end
end HttpSrc
end S2P
