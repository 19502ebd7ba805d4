import Verif.Methods.Spec
/-!
# Better answers of calls do not change a run that is finished
-/
namespace Verif.Methods
open Verif.Lexer (Chars BinOp)
open Verif.Parser (Node)
open Verif.Meaning.Named
open Verif.Value (Val)

variable {W X : Type}

/-- Whatever the first answers, other than `stop`, the second answers too. -/
def Le (stop : X) (R R' : Ans W X) : Prop := ∀ o s, R = some (o, s) → o ≠ .raise stop → R' = some (o, s)

def LeAll (stop : X) (R R' : Option (Except (Out X) (List Val) × State W)) : Prop :=
  ∀ r s, R = some (r, s) → r ≠ .error (.raise stop) → R' = some (r, s)

def LeCall (stop : X) (c c' : Chars → Val → List Val → W → Except X Val × W) : Prop :=
  ∀ m o vs w, (c m o vs w).1 ≠ .error stop → c' m o vs w = c m o vs w

variable {stop : X} {c c' : Chars → Val → List Val → W → Except X Val × W}

theorem Le.refl (R : Ans W X) : Le stop R R := fun _ _ h _ => h

theorem Le.none {R : Ans W X} : Le stop none R := by intro _ _ h; cases h

theorem Le.onValue {R R' : Ans W X} {k k' : Val → State W → Ans W X} (h : Le stop R R') (hk : ∀ v s, Le stop (k v s) (k' v s)) :
    Le stop (onValue R k) (onValue R' k') := by
  intro o s he hn
  unfold Meaning.Named.onValue at he
  split at he
  · rename_i v s1
    rw [h _ _ rfl (by simp)]
    exact hk _ _ _ _ he hn
  · rename_i hne
    rw [h _ _ he hn, Meaning.Named.onValue]
    intro v s' q
    cases q
    exact hne _ _ he

theorem Le.call (hc : LeCall stop c c') (s : State W) (m : Chars) (o : Val) (vs : List Val) (w : W) :
    Le stop (answer s (c m o vs w)) (answer s (c' m o vs w)) := by
  intro r t he hn
  rw [hc]
  · exact he
  · intro hx
    obtain ⟨a, b⟩ : (Except X Val) × W := c m o vs w
    rcases h : c m o vs w with ⟨a | v, b⟩
    · rw [h] at hx he
      simp only [Except.error.injEq] at hx
      subst hx
      cases he
      exact hn rfl
    · rw [h] at hx
      cases hx

theorem Le.apply {O : Objects W X} (hc : LeCall stop c c') (op : BinOp) (a b : Val) (s : State W) :
    Le stop (apply { O with call := c } op a b s) (apply { O with call := c' } op a b s) := by
  unfold Meaning.Named.apply
  split
  · exact .refl _
  · split
    · exact Le.call hc _ _ _ _ _
    · exact .refl _

theorem Le.rounds {f f' g g' : State W → Ans W X} (hf : ∀ s, Le stop (f s) (f' s)) (hg : ∀ s, Le stop (g s) (g' s)) (p : Bool) :
    ∀ n s, Le stop (rounds f g p n s) (rounds f' g' p n s)
  | 0, s => .refl _
  | n + 1, s => by
    intro o t he hn
    unfold Meaning.Named.rounds at he ⊢
    split at he
    · rename_i v s1 h1
      rw [hf _ _ _ h1 (by simp)]
      dsimp only
      split at he
      · rename_i hv
        rw [if_pos hv]
        split at he
        · rename_i h2
          rw [hg _ _ _ h2 (by simp)]
          exact Le.rounds hf hg p n _ _ _ he hn
        · rename_i h2
          rw [hg _ _ _ h2 (by simp)]
          exact Le.rounds hf hg p n _ _ _ he hn
        · rename_i h2
          rw [hg _ _ _ h2 (by simp)]
          exact he
        · rename_i q1 q2 q3
          rw [hg _ _ _ he hn]
          cases o <;> first | rfl | exact absurd he (q1 _ _) | exact absurd he (q2 _ _) | exact absurd he (q3 _ _)
      · rename_i hv
        rw [if_neg hv]
        exact he
    · rename_i h2
      rw [hf _ _ _ h2 (by simp)]
      exact Le.rounds hf hg p n _ _ _ he hn
    · rename_i h2
      rw [hf _ _ _ h2 (by simp)]
      exact he
    · rename_i q1 q2 q3
      rw [hf _ _ _ he hn]
      cases o <;> first | rfl | exact absurd he (q1 _ _) | exact absurd he (q2 _ _) | exact absurd he (q3 _ _)

theorem assign_call (O : Objects W X) (t : Node) (v : Val) (s : State W) : assign { O with call := c } t v s = assign O t v s := by
  unfold assign
  split <;> rfl

theorem assignAll_call (O : Objects W X) : ∀ (ts : List Node) (vs : List Val) (s : State W),
    assignAll { O with call := c } ts vs s = assignAll O ts vs s
  | [], _, _ => rfl
  | t :: ts, vs, s => by
    unfold assignAll
    rw [assign_call]
    split
    · exact assignAll_call O ts _ _
    · rfl

/-- `O` with other answers of calls. -/
def via (O : Objects W X) (c : Chars → Val → List Val → W → Except X Val × W) : Objects W X := { O with call := c }

variable {O : Objects W X} {self : Val} {n : Nat}

theorem LeAll.refl (R : Option (Except (Out X) (List Val) × State W)) : LeAll stop R R := fun _ _ h _ => h

def onAll (R : Option (Except (Out X) (List Val) × State W)) (k : List Val → State W → Ans W X) : Ans W X :=
  match R with
  | some (.ok vs, s) => k vs s
  | some (.error o, s) => some (o, s)
  | none => none

def onCons (R : Ans W X) (k : State W → Option (Except (Out X) (List Val) × State W)) :
    Option (Except (Out X) (List Val) × State W) :=
  match R with
  | some (.value v, s) => match k s with
    | some (.ok vs, s) => some (.ok (v :: vs), s)
    | r => r
  | some (o, s) => some (.error o, s)
  | none => none

theorem Le.all {R R' : Option (Except (Out X) (List Val) × State W)} {k k' : List Val → State W → Ans W X} (h : LeAll stop R R')
    (hk : ∀ vs s, Le stop (k vs s) (k' vs s)) : Le stop (onAll R k) (onAll R' k') := by
  intro o s he hn
  rcases R with _ | ⟨o' | vs, t⟩
  · cases he
  · cases he
    rw [h _ _ rfl (by simpa using hn)]
    rfl
  · rw [h _ _ rfl (by simp)]
    exact hk _ _ _ _ he hn

theorem LeAll.cons {R R' : Ans W X} {k k' : State W → Option (Except (Out X) (List Val) × State W)} (h : Le stop R R')
    (hk : ∀ s, LeAll stop (k s) (k' s)) : LeAll stop (onCons R k) (onCons R' k') := by
  intro o s he hn
  rcases R with _ | ⟨o', t⟩
  · cases he
  · by_cases hv : ∃ v, o' = .value v
    · obtain ⟨v, rfl⟩ := hv
      rw [h _ _ rfl (by simp)]
      simp only [onCons] at he ⊢
      have hk := hk t
      rcases hkt : k t with _ | ⟨o2 | vs, t2⟩
      · rw [hkt] at he; cases he
      · rw [hkt] at he
        cases he
        rw [hk _ _ hkt hn]
      · rw [hkt] at he
        rw [hk _ _ hkt (by simp)]
        exact he
    · have hs : o' ≠ .raise stop := by
        rintro rfl
        cases he
        exact hn rfl
      rw [h _ _ rfl hs]
      cases o' <;> first | exact he | exact absurd ⟨_, rfl⟩ hv

mutual
theorem mono (hc : LeCall stop c c') : ∀ (e : Node) (u : Bool) (s : State W),
    Le stop (run (via O c) self n e u s) (run (via O c') self n e u s)
  | .SelfValue, u, s | .Nil, u, s | .Bool _, u, s | .Integer _, u, s | .Bignum _, u, s | .LocalVar _, u, s
  | .InstanceVar _, u, s | .GlobalVar _, u, s | .String _, u, s | .Array l true, u, s => by rw [run, run]; exact .refl _
  | .Ident m, u, s => by rw [run, run]; exact Le.call hc _ _ _ _ _
  | .Range a b ex false, u, s => by
    rw [run, run]
    exact (mono hc a true s).onValue fun _ _ => (mono hc b true _).onValue fun _ _ => .refl _
  | .Array l false, u, s => by
    rw [run, run]
    exact Le.all (monoAll hc l s) fun _ _ => .refl _
  | .BinOp op a b, u, s => by
    by_cases h1 : op = .LAnd
    · subst h1
      rw [run, run]
      refine (mono hc a true s).onValue fun _ _ => ?_
      split
      · exact mono hc b u _
      · exact .refl _
    · by_cases h2 : op = .LOr
      · subst h2
        rw [run, run]
        refine (mono hc a true s).onValue fun _ _ => ?_
        split
        · exact .refl _
        · exact mono hc b u _
      · rw [run, run]
        · exact (mono hc a true s).onValue fun _ _ => (mono hc b true _).onValue fun _ _ => .apply hc _ _ _ _
        all_goals assumption
  | .UnOp op a, u, s => by
    by_cases h : op = .Not
    · subst h
      rw [run, run]
      exact (mono hc a true s).onValue fun _ _ => .refl _
    · rw [run, run]
      · exact (mono hc a true s).onValue fun _ _ => .refl _
      all_goals assumption
  | .Index b [i], u, s => by
    rw [run, run]
    exact (mono hc b true s).onValue fun _ _ => (mono hc i true _).onValue fun _ _ => .refl _
  | .MulAssign [.Index b [i]] [r], u, s => by
    rw [run, run]
    exact (mono hc b true s).onValue fun _ _ => (mono hc i true _).onValue fun _ _ => (mono hc r true _).onValue fun _ _ => .refl _
  | .MulAssign [.Send q m [] false] [r], u, s => by
    rw [run, run]
    exact (mono hc q true s).onValue fun _ _ => (mono hc r true _).onValue fun _ _ =>
      (Le.call hc _ _ _ _ _).onValue fun _ _ => .refl _
  | .MulAssign [.Ident x] [r], u, s => by rw [run, run]; exact (mono hc r true s).onValue fun _ _ => .refl _
  | .MulAssign [.LocalVar x] [r], u, s => by rw [run, run]; exact (mono hc r true s).onValue fun _ _ => .refl _
  | .MulAssign [.InstanceVar x] [r], u, s => by rw [run, run]; exact (mono hc r true s).onValue fun _ _ => .refl _
  | .MulAssign [.GlobalVar x] [r], u, s => by rw [run, run]; exact (mono hc r true s).onValue fun _ _ => .refl _
  | .MulAssign (t :: t' :: ts) [r], u, s => by
    rw [run, run]
    refine (mono hc r true s).onValue fun _ _ => ?_
    simp only [via, assignAll_call]
    exact .refl _
  | .MulAssign (t :: t' :: ts) (r :: r' :: rs), true, s => by
    rw [run, run]
    refine Le.all (monoAll hc (r :: r' :: rs) s) fun _ _ => ?_
    simp only [via, assignAll_call]
    exact .refl _
  | .MulAssign (t :: t' :: ts) (r :: r' :: rs), false, s => by
    rw [run, run]
    refine Le.all (monoFirst hc _ (r :: r' :: rs) s) fun _ _ => ?_
    simp only [via, assignAll_call]
    exact .refl _
  | .AssignOp op (.LocalVar x) r, u, s => by
    by_cases h1 : op = .LAnd
    · subst h1
      rw [run, run]
      split
      · exact (mono hc r true s).onValue fun _ _ => .refl _
      · exact .refl _
    · by_cases h2 : op = .LOr
      · subst h2
        rw [run, run]
        split
        · exact .refl _
        · exact (mono hc r true s).onValue fun _ _ => .refl _
      · rw [run, run]
        · exact (mono hc r true s).onValue fun _ _ => (Le.apply hc _ _ _ _).onValue fun _ _ => .refl _
        all_goals assumption
  | .AssignOp op (.InstanceVar x) r, u, s => by
    rw [run, run]
    split
    · exact .refl _
    · exact (mono hc r true s).onValue fun _ _ => (Le.apply hc _ _ _ _).onValue fun _ _ => .refl _
  | .AssignOp op (.GlobalVar x) r, u, s => by
    rw [run, run]
    split
    · exact .refl _
    · exact (mono hc r true s).onValue fun _ _ => (Le.apply hc _ _ _ _).onValue fun _ _ => .refl _
  | .CompStmt l, u, s => by rw [run, run]; exact monoSeq hc l u s
  | .If p a b, u, s => by
    rw [run, run]
    refine (mono hc p true s).onValue fun _ _ => ?_
    split
    · exact mono hc a u _
    · exact mono hc b u _
  | .While p b x, u, s => by
    rw [run, run]
    exact Le.rounds (fun s => mono hc p true s) (fun s => mono hc b false s) _ _ _
  | .Break e, u, s => by rw [run, run]; exact (mono hc e true s).onValue fun _ _ => .refl _
  | .Next e, u, s => by rw [run, run]; exact (mono hc e true s).onValue fun _ _ => .refl _
  | .Return e, u, s => by rw [run, run]; exact (mono hc e true s).onValue fun _ _ => .refl _
  | .Send q m args false, u, s => by
    rw [run, run]
    exact (mono hc q true s).onValue fun _ _ => Le.all (monoAll hc args _) fun _ _ => Le.call hc _ _ _ _ _
  | .Float _ _, u, s | .Imaginary _, u, s | .Range _ _ _ true, u, s | .SpecialVar _, u, s | .ClassVar _, u, s | .Const _ _, u, s
  | .Scope _ _, u, s | .Index _ [], u, s | .Index _ (_ :: _ :: _), u, s | .Splat _, u, s | .Rescue _ _, u, s
  | .Send _ _ _ true, u, s | .Defined _, u, s | .Def _ _ _ _, u, s | .MulAssign [] _, u, s | .MulAssign [_] [], u, s
  | .MulAssign [_] (_ :: _ :: _), u, s | .MulAssign (_ :: _ :: _) [], u, s => by
    rw [run]
    · exact .none
    all_goals simp
  | .AssignOp _ .SelfValue _, u, s
  | .AssignOp _ .Nil _, u, s
  | .AssignOp _ (.Integer _) _, u, s
  | .AssignOp _ (.Bignum _) _, u, s
  | .AssignOp _ (.Float _ _) _, u, s
  | .AssignOp _ (.Imaginary _) _, u, s
  | .AssignOp _ (.Bool _) _, u, s
  | .AssignOp _ (.String _) _, u, s
  | .AssignOp _ (.Range _ _ _ _) _, u, s
  | .AssignOp _ (.Array _ _) _, u, s
  | .AssignOp _ (.SpecialVar _) _, u, s
  | .AssignOp _ (.ClassVar _) _, u, s
  | .AssignOp _ (.Const _ _) _, u, s
  | .AssignOp _ (.Scope _ _) _, u, s
  | .AssignOp _ (.BinOp _ _ _) _, u, s
  | .AssignOp _ (.UnOp _ _) _, u, s
  | .AssignOp _ (.Splat _) _, u, s
  | .AssignOp _ (.AssignOp _ _ _) _, u, s
  | .AssignOp _ (.MulAssign _ _) _, u, s
  | .AssignOp _ (.CompStmt _) _, u, s
  | .AssignOp _ (.If _ _ _) _, u, s
  | .AssignOp _ (.While _ _ _) _, u, s
  | .AssignOp _ (.Rescue _ _) _, u, s
  | .AssignOp _ (.Break _) _, u, s
  | .AssignOp _ (.Next _) _, u, s
  | .AssignOp _ (.Return _) _, u, s
  | .AssignOp _ (.Defined _) _, u, s
  | .AssignOp _ (.Def _ _ _ _) _, u, s
  | .AssignOp _ (.Index _ _) _, u, s
  | .AssignOp _ (.Send _ _ _ _) _, u, s
  | .AssignOp _ (.Ident _) _, u, s
    => by
    rw [run]
    · exact .none
    all_goals simp
  | .MulAssign [.SelfValue] [_], u, s
  | .MulAssign [.Nil] [_], u, s
  | .MulAssign [(.Integer _)] [_], u, s
  | .MulAssign [(.Bignum _)] [_], u, s
  | .MulAssign [(.Float _ _)] [_], u, s
  | .MulAssign [(.Imaginary _)] [_], u, s
  | .MulAssign [(.Bool _)] [_], u, s
  | .MulAssign [(.String _)] [_], u, s
  | .MulAssign [(.Range _ _ _ _)] [_], u, s
  | .MulAssign [(.Array _ _)] [_], u, s
  | .MulAssign [(.SpecialVar _)] [_], u, s
  | .MulAssign [(.ClassVar _)] [_], u, s
  | .MulAssign [(.Const _ _)] [_], u, s
  | .MulAssign [(.Scope _ _)] [_], u, s
  | .MulAssign [(.BinOp _ _ _)] [_], u, s
  | .MulAssign [(.UnOp _ _)] [_], u, s
  | .MulAssign [(.Splat _)] [_], u, s
  | .MulAssign [(.AssignOp _ _ _)] [_], u, s
  | .MulAssign [(.MulAssign _ _)] [_], u, s
  | .MulAssign [(.CompStmt _)] [_], u, s
  | .MulAssign [(.If _ _ _)] [_], u, s
  | .MulAssign [(.While _ _ _)] [_], u, s
  | .MulAssign [(.Rescue _ _)] [_], u, s
  | .MulAssign [(.Break _)] [_], u, s
  | .MulAssign [(.Next _)] [_], u, s
  | .MulAssign [(.Return _)] [_], u, s
  | .MulAssign [(.Defined _)] [_], u, s
  | .MulAssign [(.Def _ _ _ _)] [_], u, s
  | .MulAssign [(.Index _ [])] [_], u, s
  | .MulAssign [(.Index _ (_ :: _ :: _))] [_], u, s
  | .MulAssign [(.Send _ _ (_ :: _) false)] [_], u, s
  | .MulAssign [(.Send _ _ _ true)] [_], u, s
    => by
    rw [run]
    · exact .none
    all_goals simp

theorem monoSeq (hc : LeCall stop c c') : ∀ (l : List Node) (u : Bool) (s : State W),
    Le stop (runSeq (via O c) self n l u s) (runSeq (via O c') self n l u s)
  | [], _, _ => by rw [runSeq, runSeq]; exact .refl _
  | [e], u, s => by rw [runSeq, runSeq]; exact mono hc e u s
  | e :: e' :: l, u, s => by
    rw [runSeq, runSeq]
    exact (mono hc e false s).onValue fun _ _ => monoSeq hc (e' :: l) u _

theorem monoAll (hc : LeCall stop c c') : ∀ (l : List Node) (s : State W),
    LeAll stop (runAll (via O c) self n l s) (runAll (via O c') self n l s)
  | [], _ => by rw [runAll, runAll]; exact .refl _
  | e :: l, s => by
    rw [runAll, runAll]
    exact LeAll.cons (mono hc e true s) fun _ => monoAll hc l _

theorem monoFirst (hc : LeCall stop c c') : ∀ (k : Nat) (l : List Node) (s : State W),
    LeAll stop (runFirst (via O c) self n k l s) (runFirst (via O c') self n k l s)
  | _, [], _ => by rw [runFirst, runFirst]; exact .refl _
  | k, e :: l, s => by
    rw [runFirst, runFirst]
    exact LeAll.cons (mono hc e _ s) fun _ => monoFirst hc (k - 1) l _
end

end Verif.Methods
