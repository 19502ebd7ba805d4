import Verif.Loader.Model
import Mathlib.Data.List.Basic
import Mathlib.Tactic.Tauto
/-!
# A file is run by `require` at most once (C52)
-/
namespace Verif.Loader

variable {T S : Type}

/-- the event that `f` begins to run, whichever way -/
def Began (t : List Event) (f : Path) : Prop := ∃ b, Event.began f b ∈ t

/-- an earlier attempt to load `f` failed: it could not be read or parsed, or its body raised -/
def Failed (t : List Event) (f : Path) : Prop := ∃ b, Event.answered f b .raised ∈ t

/-- number of suspended callers that required `f` -/
def waiting (st : List (Waiting S)) (f : Path) : Nat := st.countP (fun w => w.asked = f ∧ w.byLoad = false)

structure Inv (σ : State T S) : Prop where
  known : ∀ f, f ∈ σ.source_files ↔ (Began σ.trace f ∨ Failed σ.trace f)
  first : ∀ f t₁ t₂, σ.trace = t₁ ++ .began f false :: t₂ → ¬ Began t₁ f ∧ ¬ Failed t₁ f
  done : ∀ f, σ.trace.count (.answered f false (.value true)) + waiting σ.stack f ≤ σ.trace.count (.began f false)
  no : ∀ f b t₁ t₂, σ.trace = t₁ ++ .answered f b (.value false) :: t₂ → Began t₁ f ∨ Failed t₁ f
  inside : ∀ w ∈ σ.stack, Began σ.trace w.asked

theorem append_singleton_cases {A : Type} {t t₁ t₂ : List A} {x y : A} (h : t ++ [x] = t₁ ++ y :: t₂) :
    (t₁ = t ∧ y = x ∧ t₂ = []) ∨ ∃ t₂', t = t₁ ++ y :: t₂' := by
  rcases List.eq_nil_or_concat t₂ with rfl | ⟨t₂', z, rfl⟩
  · left
    have := List.append_inj' h rfl
    simp at this
    exact ⟨this.1.symm, this.2.symm, rfl⟩
  · right
    refine ⟨t₂', ?_⟩
    have h' : t ++ [x] = (t₁ ++ y :: t₂') ++ [z] := by simpa using h
    exact (List.append_inj' h' rfl).1

theorem Began.mono {t : List Event} {f : Path} {e : Event} (h : Began t f) : Began (t ++ [e]) f := by
  obtain ⟨b, h⟩ := h; exact ⟨b, by simp [h]⟩
theorem Failed.mono {t : List Event} {f : Path} {e : Event} (h : Failed t f) : Failed (t ++ [e]) f := by
  obtain ⟨b, h⟩ := h; exact ⟨b, by simp [h]⟩

/-- an answer to a call that is not under way: false for a known file, or an exception -/
theorem Inv.answer {σ : State T S} (I : Inv σ) (k : Reply → S) (f : Path) (b : Bool) (r : Reply)
    (sf : List Path) (hsf : ∀ g, g ∈ sf ↔ (g ∈ σ.source_files ∨ g = f))
    (hr : (r = .value false ∧ f ∈ σ.source_files) ∨ r = .raised) :
    Inv ({ σ with source_files := sf }.answer k f b r) := by
  have hA : ∀ g, Began (σ.trace ++ [.answered f b r]) g ↔ Began σ.trace g := by
    intro g; unfold Began; simp
  have hF : ∀ g, Failed (σ.trace ++ [.answered f b r]) g ↔ (Failed σ.trace g ∨ (g = f ∧ r = .raised)) := by
    intro g; unfold Failed
    constructor
    · rintro ⟨b', h⟩
      rcases List.mem_append.1 h with h | h
      · exact Or.inl ⟨b', h⟩
      · simp at h; exact Or.inr ⟨h.1, h.2.2.symm⟩
    · rintro (⟨b', h⟩ | ⟨rfl, rfl⟩)
      · exact ⟨b', by simp [h]⟩
      · exact ⟨b, by simp⟩
  refine ⟨?_, ?_, ?_, ?_, ?_⟩
  · intro g
    show g ∈ sf ↔ _
    rw [hsf]
    show _ ↔ (Began (σ.trace ++ _) g ∨ Failed (σ.trace ++ _) g)
    rw [hA, hF, I.known]
    rcases hr with ⟨rfl, hk⟩ | rfl
    · constructor
      · rintro (h | rfl)
        · rcases h with h | h
          · exact Or.inl h
          · exact Or.inr (Or.inl h)
        · rcases (I.known _).1 hk with h | h
          · exact Or.inl h
          · exact Or.inr (Or.inl h)
      · rintro (h | h | h)
        · exact Or.inl (Or.inl h)
        · exact Or.inl (Or.inr h)
        · exact absurd h.2 (by simp)
    · simp only [and_true]
      tauto
  · intro g t₁ t₂ h
    rcases append_singleton_cases h with ⟨_, h, _⟩ | ⟨t₂', h⟩
    · exact absurd h (by simp)
    · exact I.first g t₁ t₂' h
  · intro g
    have := I.done g
    show List.count _ (σ.trace ++ [_]) + waiting σ.stack g ≤ List.count _ (σ.trace ++ [_])
    rw [List.count_append, List.count_append]
    have e1 : List.count (Event.answered g false (.value true)) [Event.answered f b r] = 0 := by
      rw [List.count_eq_zero]
      rcases hr with ⟨rfl, _⟩ | rfl <;> simp
    rw [e1]; omega
  · intro g b' t₁ t₂ h
    rcases append_singleton_cases h with ⟨h1, h', _⟩ | ⟨t₂', h⟩
    · subst h1
      injection h' with h2 h3 h4
      subst h2 h3 h4
      rcases hr with ⟨_, hk⟩ | h
      · exact (I.known _).1 hk
      · exact absurd h (by simp)
    · exact I.no g b' t₁ t₂' h
  · intro w hw
    exact (I.inside w hw).mono

theorem add_mem {l : List Path} {f : Path} : ∀ g, g ∈ (add_source_file l f).2 ↔ (g ∈ l ∨ g = f) := by
  intro g
  unfold add_source_file
  split
  · rename_i h
    have : f ∈ l := by simpa using h
    constructor
    · exact Or.inl
    · rintro (h | rfl)
      · exact h
      · exact this
  · simp

theorem add_new {l : List Path} {f : Path} : (add_source_file l f).1 = true ↔ f ∉ l := by
  unfold add_source_file
  split
  · rename_i h; simpa using h
  · rename_i h; simpa using h

theorem Inv.load_exec {P : Prog T S} {σ : State T S} (I : Inv σ) (path : Path) (b : Bool) (k : Reply → S) :
    Inv (σ.load_exec P path b k) := by
  unfold State.load_exec
  split
  · exact ⟨I.known, I.first, I.done, I.no, I.inside⟩
  · rename_i f hcan
    simp only
    split
    · rename_i hk
      have hk' : f ∈ σ.source_files := by
        by_contra hc
        rw [add_new.2 hc] at hk
        simp at hk
      exact I.answer k f b _ _ add_mem (Or.inl ⟨rfl, hk'⟩)
    · rename_i hk
      split
      · exact I.answer k f b _ _ add_mem (Or.inr rfl)
      · split
        · refine I.answer k f b _ _ ?_ (Or.inr rfl)
          intro g; rw [add_mem, add_mem]; tauto
        · rename_i s _
          have hnew : b = false → f ∉ σ.source_files := by
            rintro rfl
            simp at hk
            exact add_new.1 hk
          have hB : ∀ g, Began (σ.trace ++ [.began f b]) g ↔ (Began σ.trace g ∨ g = f) := by
            intro g; unfold Began
            constructor
            · rintro ⟨b', h⟩
              rcases List.mem_append.1 h with h | h
              · exact Or.inl ⟨b', h⟩
              · simp at h; exact Or.inr h.1
            · rintro (⟨b', h⟩ | rfl)
              · exact ⟨b', by simp [h]⟩
              · exact ⟨b, by simp⟩
          have hF : ∀ g, Failed (σ.trace ++ [.began f b]) g ↔ Failed σ.trace g := by
            intro g; unfold Failed; simp
          refine ⟨?_, ?_, ?_, ?_, ?_⟩
          · intro g
            show g ∈ (add_source_file (add_source_file σ.source_files f).2 f).2 ↔
              (Began (σ.trace ++ _) g ∨ Failed (σ.trace ++ _) g)
            rw [add_mem, add_mem, hB, hF, I.known]; tauto
          · intro g t₁ t₂ h
            rcases append_singleton_cases h with ⟨h1, h', _⟩ | ⟨t₂', h⟩
            · subst h1
              injection h' with h2 h3
              subst h2
              have := hnew h3.symm
              rw [I.known] at this
              tauto
            · exact I.first g t₁ t₂' h
          · intro g
            have := I.done g
            show List.count _ (σ.trace ++ [_]) + waiting (_ :: σ.stack) g ≤ List.count _ (σ.trace ++ [_])
            unfold waiting at this ⊢
            rw [List.count_append, List.count_append, List.countP_cons]
            have e1 : List.count (Event.answered g false (.value true)) [Event.began f b] = 0 := by
              rw [List.count_eq_zero]; simp
            rw [e1]
            by_cases hg : f = g ∧ b = false
            · obtain ⟨rfl, rfl⟩ := hg
              rw [List.count_singleton_self, if_pos (by simp)]; omega
            · simp only [hg, decide_false, Bool.false_eq_true, if_false]; omega
          · intro g b' t₁ t₂ h
            rcases append_singleton_cases h with ⟨_, h, _⟩ | ⟨t₂', h⟩
            · exact absurd h (by simp)
            · exact I.no g b' t₁ t₂' h
          · intro w hw
            show Began (σ.trace ++ _) _
            rw [hB]
            rcases List.mem_cons.1 hw with rfl | hw
            · exact Or.inr rfl
            · exact Or.inl (I.inside w hw)

theorem Inv.finish {σ : State T S} (I : Inv σ) (r : Reply) (hr : r ≠ .value false) : Inv (σ.finish r) := by
  unfold State.finish
  split
  · exact ⟨I.known, I.first, I.done, I.no, I.inside⟩
  · rename_i w rest hst
    have hw : Began σ.trace w.asked := I.inside w (by rw [hst]; simp)
    have hA : ∀ g, Began (σ.trace ++ [.answered w.asked w.byLoad r]) g ↔ Began σ.trace g := by
      intro g; unfold Began; simp
    refine ⟨?_, ?_, ?_, ?_, ?_⟩
    · intro g
      show g ∈ σ.source_files ↔ (Began (σ.trace ++ _) g ∨ Failed (σ.trace ++ _) g)
      rw [hA, I.known]
      constructor
      · rintro (h | h)
        · exact Or.inl h
        · exact Or.inr h.mono
      · rintro (h | ⟨b, h⟩)
        · exact Or.inl h
        · rcases List.mem_append.1 h with h | h
          · exact Or.inr ⟨b, h⟩
          · simp at h
            rw [h.1]; exact Or.inl hw
    · intro g t₁ t₂ h
      rcases append_singleton_cases h with ⟨_, h, _⟩ | ⟨t₂', h⟩
      · exact absurd h (by simp)
      · exact I.first g t₁ t₂' h
    · intro g
      have := I.done g
      rw [hst] at this
      show List.count _ (σ.trace ++ [_]) + waiting rest g ≤ List.count _ (σ.trace ++ [_])
      unfold waiting at this ⊢
      rw [List.countP_cons] at this
      rw [List.count_append, List.count_append]
      have e1 : List.count (Event.began g false) [Event.answered w.asked w.byLoad r] = 0 := by
        rw [List.count_eq_zero]; simp
      rw [e1]
      by_cases hg : w.asked = g ∧ w.byLoad = false
      · simp only [hg] at this
        have e2 : List.count (Event.answered g false (.value true)) [Event.answered w.asked w.byLoad r] ≤ 1 :=
          List.count_le_length
        simp only [and_self, decide_true, if_true] at this
        omega
      · have e2 : List.count (Event.answered g false (.value true)) [Event.answered w.asked w.byLoad r] = 0 := by
          rw [List.count_eq_zero]
          simp
          intro h1 h2
          exact absurd ⟨h1.symm, h2⟩ hg
        rw [e2]; omega
    · intro g b' t₁ t₂ h
      rcases append_singleton_cases h with ⟨_, h, _⟩ | ⟨t₂', h⟩
      · injection h with _ _ h4
        exact absurd h4.symm hr
      · exact I.no g b' t₁ t₂' h
    · intro w' hw'
      exact (I.inside w' (by rw [hst]; exact List.mem_cons_of_mem _ hw')).mono

theorem Inv.step {P : Prog T S} {σ : State T S} (I : Inv σ) : Inv (step P σ) := by
  unfold Loader.step
  split
  · exact I
  · split
    · exact I.finish _ (by simp)
    · exact I.finish _ (by simp)
    · exact ⟨I.known, I.first, I.done, I.no, I.inside⟩
    · split
      · exact I.load_exec ..
      · exact ⟨I.known, I.first, I.done, I.no, I.inside⟩
      · exact ⟨I.known, I.first, I.done, I.no, I.inside⟩
    · exact I.load_exec ..
    · split
      · exact I.load_exec ..
      · exact ⟨I.known, I.first, I.done, I.no, I.inside⟩

theorem Inv.start (main : Path) (fs : Fs T) (lp : Option (List Path)) (s : S) : Inv (start main fs lp s) := by
  refine ⟨?_, ?_, ?_, ?_, ?_⟩
  · intro f
    simp [Loader.start, Began, Failed]
  · intro f t₁ t₂ h
    rcases append_singleton_cases (t := []) h with ⟨_, h, _⟩ | ⟨t₂', h⟩
    · exact absurd h (by simp)
    · simp at h
  · intro f; simp [Loader.start, waiting]
  · intro f b t₁ t₂ h
    rcases append_singleton_cases (t := []) h with ⟨_, h, _⟩ | ⟨t₂', h⟩
    · exact absurd h (by simp)
    · simp at h
  · intro w hw; simp [Loader.start] at hw

theorem Inv.run {P : Prog T S} (n : Nat) {σ : State T S} (I : Inv σ) : Inv (run P n σ) := by
  induction n generalizing σ with
  | zero => exact I
  | succ n ih => exact ih I.step

/-- The states an execution of any program reaches, with any files. -/
def Reached (P : Prog T S) (σ : State T S) : Prop :=
  ∃ n main fs lp s, σ = run P n (start main fs lp s)

theorem Reached.inv {P : Prog T S} {σ : State T S} (h : Reached P σ) : Inv σ := by
  obtain ⟨n, main, fs, lp, s, rfl⟩ := h
  exact (Inv.start ..).run n

/-- **C52 (at most once).**  At every moment of every execution — nested and mutual requires, exceptions,
loads, changes of the file system and of `$:` included — the body of a file has been started by
`require`/`require_relative` at most once, and never after it had been started in any way. -/
theorem C52_at_most_once (P : Prog T S) (σ : State T S) (h : Reached P σ) (f : Path) :
    σ.trace.count (.began f false) ≤ 1 ∧
    ∀ t₁ t₂, σ.trace = t₁ ++ .began f false :: t₂ → ∀ byLoad, .began f byLoad ∉ t₁ := by
  have I := h.inv
  refine ⟨?_, fun t₁ t₂ e b hb => (I.first f t₁ t₂ e).1 ⟨b, hb⟩⟩
  by_contra hc
  have hm : Event.began f false ∈ σ.trace := List.count_pos_iff.1 (by omega)
  obtain ⟨t₁, t₂, e⟩ := List.append_of_mem hm
  rw [e, List.count_append, List.count_cons_self] at hc
  have h1 : t₁.count (.began f false) = 0 := by
    rw [List.count_eq_zero]
    exact fun hb => (I.first f t₁ t₂ e).1 ⟨false, hb⟩
  have h2 : 0 < t₂.count (.began f false) := by omega
  obtain ⟨u, v, e2⟩ := List.append_of_mem (List.count_pos_iff.1 h2)
  refine (I.first f (t₁ ++ .began f false :: u) v (by rw [e, e2]; simp)).1 ⟨false, by simp⟩

/-- **C52 (true means: run, by this call).**  `true` is answered at most once per file, and only after the file
has run. -/
theorem C52_true_at_most_once (P : Prog T S) (σ : State T S) (h : Reached P σ) (f : Path) :
    σ.trace.count (.answered f false (.value true)) ≤ σ.trace.count (.began f false) ∧
    σ.trace.count (.answered f false (.value true)) ≤ 1 := by
  have I := h.inv
  have h1 := I.done f
  have h2 := (C52_at_most_once P σ h f).1
  omega

/-- **C52 (false means: known).**  `false` is answered for a file only if it had begun to run before, or an
attempt to load it had failed. -/
theorem C52_false_only_if_known (P : Prog T S) (σ : State T S) (h : Reached P σ) (f : Path) (b : Bool)
    (t₁ t₂ : List Event) (e : σ.trace = t₁ ++ .answered f b (.value false) :: t₂) :
    (∃ b', .began f b' ∈ t₁) ∨ (∃ b', .answered f b' .raised ∈ t₁) :=
  h.inv.no f b t₁ t₂ e

/-- What the program asks for next, and the file it means, whatever name it uses. -/
def Asks (P : Prog T S) (σ : State T S) (f : Path) (k : Reply → S) : Prop :=
  σ.halted = false ∧ ∃ p, σ.fs.canonicalize p = some f ∧
    ((∃ name, P.next σ.cur = .require name k ∧ find σ.fs σ.loadPath name = .file p) ∨
     (∃ name, P.next σ.cur = .require_relative name k ∧ relative σ.path name = p))

theorem Asks.step {P : Prog T S} {σ : State T S} {f : Path} {k : Reply → S} (h : Asks P σ f k) :
    ∃ p, σ.fs.canonicalize p = some f ∧ Loader.step P σ = σ.load_exec P p false k := by
  obtain ⟨hh, p, hp, h⟩ := h
  refine ⟨p, hp, ?_⟩
  unfold Loader.step
  rw [if_neg (by simp [hh])]
  rcases h with ⟨name, hn, hf⟩ | ⟨name, hn, hf⟩
  · rw [hn]; simp only [hf]
  · rw [hn]; simp only [hf]

/-- **C52 (the second require).**  Once a file has begun to run — it may still be running, or have raised —
every `require` or `require_relative` that means this file answers false at once and runs nothing. -/
theorem C52_again_is_false (P : Prog T S) (σ : State T S) (h : Reached P σ) (f : Path) (k : Reply → S)
    (hb : ∃ b, .began f b ∈ σ.trace) (ha : Asks P σ f k) :
    step P σ = { σ with cur := k (.value false), trace := σ.trace ++ [.answered f false (.value false)] } := by
  obtain ⟨p, hp, hs⟩ := ha.step
  have hk : f ∈ σ.source_files := (h.inv.known f).2 (Or.inl hb)
  rw [hs]
  unfold State.load_exec
  have e : add_source_file σ.source_files f = (false, σ.source_files) := by
    unfold add_source_file
    rw [if_pos (by simpa using hk)]
  simp only [hp, e]
  rfl

/-- **C52 (the first require).**  A file that has not been asked for before, exists and is a program, is run. -/
theorem C52_first_runs (P : Prog T S) (σ : State T S) (h : Reached P σ) (f : Path) (k : Reply → S) (text : T) (s : S)
    (hb : ∀ b, .began f b ∉ σ.trace) (hf : ∀ b, .answered f b .raised ∉ σ.trace) (ha : Asks P σ f k)
    (hr : σ.fs.read f = some text) (hs : P.parse text = some s) :
    (step P σ).cur = s ∧ (step P σ).path = f ∧ (step P σ).trace = σ.trace ++ [.began f false] := by
  obtain ⟨p, hp, hst⟩ := ha.step
  have hk : f ∉ σ.source_files := by
    rw [h.inv.known]
    rintro (⟨b, h⟩ | ⟨b, h⟩)
    · exact hb b h
    · exact hf b h
  have hn := (add_new (l := σ.source_files) (f := f)).2 hk
  rw [hst]
  unfold State.load_exec
  simp [hp, hn, hr, hs]

/-- **C52 (`load` always runs).**  `load` runs a file that exists and is a program, whether or not it has been
run before. -/
theorem C52_load_runs (P : Prog T S) (σ : State T S) (f p name : Path) (k : Reply → S) (text : T) (s : S)
    (hh : σ.halted = false) (hn : P.next σ.cur = .load name k) (hl : findLoad σ.fs σ.loadPath name = some p)
    (hp : σ.fs.canonicalize p = some f) (hr : σ.fs.read f = some text) (hs : P.parse text = some s) :
    (step P σ).cur = s ∧ (step P σ).path = f ∧ (step P σ).trace = σ.trace ++ [.began f true] := by
  unfold step
  rw [if_neg (by simp [hh]), hn]
  simp only [hl]
  unfold State.load_exec
  simp [hp, hr, hs]

/-- **C52 (the caller goes on).**  Once a file runs for a caller, then at every later moment either it is still
running (possibly waiting for files of its own), or there was a moment when exactly the caller went on, with an
answer, in its own file. -/
theorem C52_caller_goes_on (P : Prog T S) (σ : State T S) (w : Waiting S) (base : List (Waiting S))
    (h : σ.stack = w :: base) (n : Nat) :
    (∃ inner, (run P n σ).stack = inner ++ w :: base) ∨
    ∃ m, m ≤ n ∧ ∃ r, (run P m σ).stack = base ∧ (run P m σ).path = w.path ∧ (run P m σ).cur = w.k r ∧
      ∃ t, (run P m σ).trace = t ++ [.answered w.asked w.byLoad r] := by
  have hrun : ∀ m (σ : State T S), run P (m + 1) σ = step P (run P m σ) := by
    intro m
    induction m with
    | zero => intro σ; rfl
    | succ m ih => intro σ; show run P (m + 1) (step P σ) = step P (run P m (step P σ)); exact ih _
  induction n with
  | zero => exact Or.inl ⟨[], h⟩
  | succ n ih =>
    rcases ih with ⟨inner, hi⟩ | ⟨m, hm, h⟩
    swap
    · exact Or.inr ⟨m, by omega, h⟩
    rw [hrun]
    generalize hτ : run P n σ = τ at hi
    have hload : ∀ p b k, ∃ inner, (τ.load_exec P p b k).stack = inner ++ w :: base := by
      intro p b k
      unfold State.load_exec
      split
      · exact ⟨inner, hi⟩
      · simp only
        split
        · exact ⟨inner, hi⟩
        · split
          · exact ⟨inner, hi⟩
          · split
            · exact ⟨inner, hi⟩
            · exact ⟨⟨τ.path, k, _, b⟩ :: inner, congrArg (_ :: ·) hi⟩
    have hfin : ∀ r, (∃ inner, (τ.finish r).stack = inner ++ w :: base) ∨
        ((τ.finish r).stack = base ∧ (τ.finish r).path = w.path ∧ (τ.finish r).cur = w.k r ∧
          ∃ t, (τ.finish r).trace = t ++ [.answered w.asked w.byLoad r]) := by
      intro r
      unfold State.finish
      rw [hi]
      cases inner with
      | nil => exact Or.inr ⟨rfl, rfl, rfl, _, rfl⟩
      | cons v inner => exact Or.inl ⟨inner, rfl⟩
    have hfin' : ∀ r, step P τ = τ.finish r → (∃ inner, (step P τ).stack = inner ++ w :: base) ∨
        ∃ m, m ≤ n + 1 ∧ ∃ r, (run P m σ).stack = base ∧ (run P m σ).path = w.path ∧ (run P m σ).cur = w.k r ∧
          ∃ t, (run P m σ).trace = t ++ [.answered w.asked w.byLoad r] := by
      intro r hs
      rcases hfin r with h | h
      · exact Or.inl (by rw [hs]; exact h)
      · refine Or.inr ⟨n + 1, Nat.le_refl _, r, ?_⟩
        rw [hrun, hτ, hs]; exact h
    by_cases hh : τ.halted = true
    · left; exact ⟨inner, by unfold step; rw [if_pos hh]; exact hi⟩
    · have e : step P τ = match P.next τ.cur with
          | .done => τ.finish (.value true)
          | .raise => τ.finish .raised
          | .other s fs loadPath => { τ with cur := s, fs := fs, loadPath := loadPath }
          | .require name k =>
            match find τ.fs τ.loadPath name with
            | .file p => τ.load_exec P p false k
            | .nothing => τ.reply k (.value false)
            | .missing => τ.reply k .raised
          | .require_relative name k => τ.load_exec P (relative τ.path name) false k
          | .load name k =>
            match findLoad τ.fs τ.loadPath name with
            | some p => τ.load_exec P p true k
            | none => τ.reply k .raised := by
        conv_lhs => unfold step
        rw [if_neg hh]
        rfl
      cases hx : P.next τ.cur with
      | done => rw [hx] at e; exact hfin' _ e
      | raise => rw [hx] at e; exact hfin' _ e
      | other => rw [hx] at e; left; rw [e]; exact ⟨inner, hi⟩
      | require name k =>
        rw [hx] at e; left; rw [e]; dsimp only
        split
        · exact hload _ _ _
        · exact ⟨inner, hi⟩
        · exact ⟨inner, hi⟩
      | require_relative name k => rw [hx] at e; left; rw [e]; exact hload _ _ _
      | load name k =>
        rw [hx] at e; left; rw [e]; dsimp only
        split
        · exact hload _ _ _
        · exact ⟨inner, hi⟩

/-- **C52 (relative names).**  `require_relative` starts in the directory of the file in which the call stands,
goes up once for each leading `..`, then down the rest of the name, and takes the file with extension `rb`. -/
theorem C52_relative (root : Bool) (dirs ups downs : List (List Char)) (here n : List Char)
    (hd : ∀ d ∈ downs, d ≠ ['.', '.']) (hn : n ≠ ['.', '.']) :
    relative ⟨root, dirs ++ ups ++ [here]⟩ ⟨false, ups.map (fun _ => ['.', '.']) ++ downs ++ [n]⟩ =
      ⟨root, dirs ++ downs ++ [stem n ++ ".rb".toList]⟩ := by
  have up : ∀ (k : Nat) (l : List (List Char)), k ≤ l.length →
      (List.replicate k ['.', '.']).foldl (fun (p : Path) c => if c = ['.', '.'] then p.pop else p.push ⟨false, [c]⟩)
        ⟨root, l⟩ = ⟨root, l.take (l.length - k)⟩ := by
    intro k
    induction k with
    | zero => intro l _; simp
    | succ k ih =>
      intro l hl
      rw [List.replicate_succ, List.foldl_cons, if_pos rfl]
      rw [show Path.pop ⟨root, l⟩ = ⟨root, l.dropLast⟩ from rfl, ih _ (by simp; omega)]
      rw [List.length_dropLast]
      simp only [List.dropLast_eq_take, List.take_take]
      congr 2
      omega
  have down : ∀ (ds : List (List Char)) (l : List (List Char)), (∀ d ∈ ds, d ≠ ['.', '.']) →
      ds.foldl (fun (p : Path) c => if c = ['.', '.'] then p.pop else p.push ⟨false, [c]⟩) ⟨root, l⟩ = ⟨root, l ++ ds⟩ := by
    intro ds
    induction ds with
    | nil => intro l _; simp
    | cons d ds ih =>
      intro l h
      rw [List.foldl_cons, if_neg (h d (by simp))]
      rw [show Path.push ⟨root, l⟩ ⟨false, [d]⟩ = ⟨root, l ++ [d]⟩ from rfl, ih _ (fun x hx => h x (List.mem_cons_of_mem _ hx))]
      simp
  unfold relative
  have e1 : Path.pop ⟨root, dirs ++ ups ++ [here]⟩ = ⟨root, dirs ++ ups⟩ := by
    unfold Path.pop; simp
  rw [e1, List.map_const', List.append_assoc, List.foldl_append, up _ _ (by simp)]
  rw [down _ _ (by
    intro d hd'
    rcases List.mem_append.1 hd' with h | h
    · exact hd d h
    · rw [List.mem_singleton.1 h]; exact hn)]
  unfold Path.set_extension
  have : (dirs ++ ups).take ((dirs ++ ups).length - ups.length) = dirs := by simp
  rw [this]
  simp only [List.reverse_append, List.reverse_cons, List.reverse_nil, List.nil_append, List.cons_append]
  rw [if_neg hn]
  simp

example : relative ⟨true, [['l'], ['x'], ['m', '.', 'r', 'b']]⟩ ⟨false, [['.', '.'], ['y'], ['z']]⟩ =
    ⟨true, [['l'], ['y'], ['z', '.', 'r', 'b']]⟩ := by decide +kernel

/-- A file in a directory of `$:` is found in the first directory that has it. -/
theorem C52_search (fs : Fs T) (name dir : Path) (before after : List Path)
    (h : fs.exists_ ((dir.push name).set_extension "rb".toList))
    (hb : ∀ d ∈ before, ¬ fs.exists_ ((d.push name).set_extension "rb".toList) ∧
      ¬ fs.exists_ (((d.push name).set_extension "rb".toList).set_extension "so".toList)) :
    search fs name (before ++ dir :: after) = .file ((dir.push name).set_extension "rb".toList) := by
  induction before with
  | nil => simp only [List.nil_append, search]; rw [if_pos h]
  | cons d ds ih =>
    have h1 := hb d (by simp)
    simp only [List.cons_append, search]
    rw [if_neg h1.1, if_neg h1.2]
    exact ih (fun d hd => hb d (List.mem_cons_of_mem _ hd))

/-- `load` takes the file of the name it is given if there is one, and otherwise the one in the first directory of `$:` that has
it; if there is none it raises an exception. -/
theorem C52_load_finds (fs : Fs T) (name : Path) :
    (fs.exists_ name → ∀ lp, findLoad fs lp name = some name) ∧
    (¬ fs.exists_ name → ∀ dir before after, fs.exists_ (dir.push name) → (∀ d ∈ before, ¬ fs.exists_ (d.push name)) →
      findLoad fs (some (before ++ dir :: after)) name = some (dir.push name)) ∧
    (¬ fs.exists_ name → ∀ lp, (∀ ds, lp = some ds → ∀ d ∈ ds, ¬ fs.exists_ (d.push name)) → findLoad fs lp name = none) := by
  refine ⟨fun h lp => by unfold findLoad; rw [if_pos h], fun h dir before after h1 h2 => ?_, fun h lp h1 => ?_⟩
  · unfold findLoad; rw [if_neg h]
    show List.find? _ ((before ++ dir :: after).map (·.push name)) = _
    induction before with
    | nil => simp [h1]
    | cons d ds ih =>
      have := h2 d (by simp)
      simp only [List.cons_append, List.map_cons]
      rw [List.find?_cons_of_neg (by simpa using this)]
      exact ih (fun e he => h2 e (List.mem_cons_of_mem _ he))
  · unfold findLoad; rw [if_neg h]
    cases lp with
    | none => rfl
    | some ds =>
      dsimp only
      rw [List.find?_eq_none]
      intro p hp
      obtain ⟨d, hd, rfl⟩ := List.mem_map.1 hp
      simpa using h1 ds rfl d hd

/-! ## Cases that meet the hypotheses: two files that require each other -/

/-- The states of a small program: what is still to be required, and the answers so far. -/
structure Todo where
  names : List String
  answers : List Reply
deriving DecidableEq

def file (s : String) : Path := ⟨true, [s.toList ++ ".rb".toList]⟩

def two : Prog (List String) Todo where
  next s := match s.names with
    | [] => .done
    | n :: ns => .require ⟨true, [n.toList]⟩ (fun r => ⟨ns, s.answers ++ [r]⟩)
  parse t := some ⟨t, []⟩

/-- `a.rb` requires `b`; `b.rb` requires `a`. -/
def disk : Fs (List String) where
  canonicalize p := if p = file "a" ∨ p = file "b" then some p else none
  read p := if p = file "a" then some ["b"] else if p = file "b" then some ["a"] else none

example : findLoad disk (some [⟨true, [['l']]⟩, ⟨true, []⟩]) ⟨false, ["a.rb".toList]⟩ = some (file "a") := by decide +kernel

/-- The main program requires `a` three times: each body runs once. -/
example : (run two 20 (start (file "main") disk none ⟨["a", "a", "b"], []⟩)).trace =
    [.began (file "main") true, .began (file "a") false, .began (file "b") false,
     .answered (file "a") false (.value false), .answered (file "b") false (.value true),
     .answered (file "a") false (.value true), .answered (file "a") false (.value false),
     .answered (file "b") false (.value false)] := by decide +kernel

example : Asks two (run two 1 (start (file "main") disk none ⟨["a", "a"], []⟩)) (file "b")
    (fun r => ⟨[], [] ++ [r]⟩) :=
  ⟨by decide +kernel, file "b", by decide +kernel, Or.inl ⟨_, rfl, by decide +kernel⟩⟩

end Verif.Loader
