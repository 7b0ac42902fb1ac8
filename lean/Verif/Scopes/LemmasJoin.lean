import Verif.Scopes.LemmasFlat
import Verif.Scopes.ModelJoin
import Verif.Scopes.SpecJoin

/-
Lemmas: joining two conditionals keeps what is run.
-/
namespace Verif.Scopes.Join

open Verif.Scopes Verif.Scopes.Order

/-! ### code which is run -/

theorem runs_cons (op : Nat → Op) (it n : Nat) (S : List Frame) (l : List Nat) : runs op it S (n :: l) =
    match op n, S with
    | .startIf rs, S => runs op it (⟨holds rs it, holds rs it⟩ :: S) l
    | .elseIf rs, F :: S => runs op it (⟨!F.taken && holds rs it, F.taken || holds rs it⟩ :: S) l
    | .els, F :: S => runs op it (⟨!F.taken, true⟩ :: S) l
    | .endIf, _ :: S => runs op it S l
    | .elseIf _, [] => none
    | .els, [] => none
    | .endIf, [] => none
    | .tmpDcl, S => runs op it S l
    | _, S => (runs op it S l).map fun r => (if S.all (·.on) then n :: r.1 else r.1, r.2) := by
  conv => lhs; unfold runs
  cases op n <;> cases S <;> rfl

theorem runs_append (op : Nat → Op) (it : Nat) : ∀ (l m : List Nat) (S : List Frame), runs op it S (l ++ m) =
    (runs op it S l).bind fun r => (runs op it r.2 m).map fun r' => (r.1 ++ r'.1, r'.2) := by
  intro l
  induction l with
  | nil =>
    intro m S
    have : runs op it S [] = some ([], S) := by unfold runs; rfl
    rw [this]
    simp
  | cons n l ih =>
    intro m S
    rw [List.cons_append, runs_cons, runs_cons]
    have last : ∀ S, (runs op it S (l ++ m)).map (fun r => (if S.all (·.on) then n :: r.1 else r.1, r.2)) =
        ((runs op it S l).map fun r => (if S.all (·.on) then n :: r.1 else r.1, r.2)).bind
          fun r => (runs op it r.2 m).map fun r' => (r.1 ++ r'.1, r'.2) := by
      intro S
      rw [ih]
      cases h : runs op it S l with
      | none => rfl
      | some r =>
        simp only [Option.bind_some, Option.map_some]
        cases h2 : runs op it r.2 m with
        | none => rfl
        | some r' =>
          simp only [Option.map_some]
          split <;> rfl
    cases hop : op n <;> cases S <;> first | exact last _ | exact ih _ _ | rfl

theorem runs_congr {op op' : Nat → Op} (it : Nat) : ∀ (l : List Nat) (S : List Frame), (∀ n ∈ l, op' n = op n) →
    runs op' it S l = runs op it S l := by
  intro l
  induction l with
  | nil => intro S _; rfl
  | cons n l ih =>
    intro S h
    have h1 := h n (by simp)
    have h2 : ∀ S, runs op' it S l = runs op it S l := fun S => ih S (fun m hm => h m (by simp [hm]))
    rw [runs_cons, runs_cons, h1]
    simp only [h2]

/-- after the code the same conditionals are open as before it -/
def Bal (op : Nat → Op) (l : List Nat) : Prop := ∀ it S, ∃ t, runs op it S l = some (t, S)

/-- the code opens one conditional, or none if it is a loop -/
def Opens (op : Nat → Op) (b : Nat) (l : List Nat) : Prop :=
  if op b = .loopStart then Bal op l else ∀ it S, ∃ t F, runs op it S l = some (t, F :: S)

theorem Bal.append {op : Nat → Op} {l m : List Nat} (h : Bal op l) (h' : Bal op m) : Bal op (l ++ m) := by
  intro it S
  obtain ⟨t, ht⟩ := h it S
  obtain ⟨t', ht'⟩ := h' it S
  exact ⟨t ++ t', by rw [runs_append, ht]; simp [ht']⟩

theorem Bal.nil (op : Nat → Op) : Bal op [] := fun _ _ => ⟨[], rfl⟩

theorem Bal.one {op : Nat → Op} {n : Nat} (h1 : (op n).begins = false ∨ op n = .loopStart) (h2 : (op n).ends = false) : Bal op [n] := by
  intro it S
  unfold runs
  cases hn : op n <;> rw [hn] at h1 h2 <;> simp_all [Op.begins, Op.ends, runs]

/-! ### shape of the queues -/

/-- the scope which ends with a node -/
def ent (P : Placed) (n : Nat) : Nat :=
  match (P.nd n).args with
  | b :: _ => P.scope b
  | [] => 0

structure Shape (P : Placed) (queue : Nat → List Nat) : Prop where
  first : ∀ c, c ≠ 0 → ∀ b q, queue c = b :: q → (P.nd b).op.begins = true ∧ P.scope b = c ∧ ∀ x ∈ q, (P.nd x).op.begins = false
  top : ∀ x ∈ queue 0, (P.nd x).op.begins = false
  ends : ∀ c, ∀ e ∈ queue c, (P.nd e).op.isEnd = true → ∃ b as q, (P.nd e).args = b :: as ∧ queue (P.scope b) = b :: q ∧ P.scope b ≠ 0 ∧
    ((P.nd e).op = .loopEnd ↔ (P.nd b).op = .loopStart) ∧
    ((P.nd e).op = .endIf → ∀ r ∈ as, (P.nd r).op = .condRes ∧ (P.nd r).args ≠ [])
  uniq : ∀ c c', ∀ e ∈ queue c, ∀ e' ∈ queue c', (P.nd e).op.isEnd = true → (P.nd e').op.isEnd = true → ent P e = ent P e' → e = e'
  place : ∀ c c' x, x ∈ queue c → x ∈ queue c' → c = c'
  nodup : ∀ c, (queue c).Nodup
  rank : ∃ R : Nat → Nat, ∀ c, ∀ e ∈ queue c, (P.nd e).op.isEnd = true → R (ent P e) < R c
  paths : ∀ c, c ≠ 0 → queue c ≠ [] → P.path c ≠ []

section
variable {P : Placed} {queue : Nat → List Nat}

theorem lay_cons (P : Placed) (go : Nat → Except Err (List Nat)) (n : Nat) (q : List Nat) : lay P go (n :: q) =
    if (P.nd n).op.isEnd then
      match (P.nd n).args with
      | [] => .error .undefined
      | b :: _ =>
        match go (P.scope b) with
        | .error x => .error x
        | .ok block =>
          match lay P go q with
          | .error x => .error x
          | .ok l => .ok (block ++ n :: l)
    else
      match lay P go q with
      | .error x => .error x
      | .ok l => .ok (n :: l) := by
  rfl

theorem lay_append {go : Nat → Except Err (List Nat)} : ∀ {q r l : List Nat}, lay P go (q ++ r) = .ok l ↔
    ∃ l₁ l₂, lay P go q = .ok l₁ ∧ lay P go r = .ok l₂ ∧ l = l₁ ++ l₂ := by
  intro q r
  induction q with
  | nil =>
    intro l
    constructor
    · intro h; exact ⟨[], l, rfl, h, rfl⟩
    · rintro ⟨l₁, l₂, h1, h2, rfl⟩
      simp only [lay, Except.ok.injEq] at h1
      subst h1
      exact h2
  | cons n q ih =>
    intro l
    rw [List.cons_append, lay_cons, lay_cons]
    by_cases he : (P.nd n).op.isEnd = true
    · simp only [he, if_true]
      cases hargs : (P.nd n).args with
      | nil => simp
      | cons b as =>
        simp only
        cases hg : go (P.scope b) with
        | error x => simp
        | ok block =>
          simp only
          constructor
          · intro h
            cases h2 : lay P go (q ++ r) with
            | error x => rw [h2] at h; cases h
            | ok m =>
              rw [h2] at h
              obtain ⟨l₁, l₂, h3, h4, rfl⟩ := ih.1 h2
              simp only [Except.ok.injEq] at h
              subst h
              exact ⟨block ++ n :: l₁, l₂, by rw [h3], h4, by simp⟩
          · rintro ⟨l₁, l₂, h1, h2, rfl⟩
            cases h3 : lay P go q with
            | error x => rw [h3] at h1; cases h1
            | ok m =>
              rw [h3] at h1
              simp only [Except.ok.injEq] at h1
              subst h1
              rw [ih.2 ⟨m, l₂, h3, h2, rfl⟩]
              simp
    · simp only [he, Bool.false_eq_true, if_false]
      constructor
      · intro h
        cases h2 : lay P go (q ++ r) with
        | error x => rw [h2] at h; cases h
        | ok m =>
          rw [h2] at h
          obtain ⟨l₁, l₂, h3, h4, rfl⟩ := ih.1 h2
          simp only [Except.ok.injEq] at h
          subst h
          exact ⟨n :: l₁, l₂, by rw [h3], h4, by simp⟩
      · rintro ⟨l₁, l₂, h1, h2, rfl⟩
        cases h3 : lay P go q with
        | error x => rw [h3] at h1; cases h1
        | ok m =>
          rw [h3] at h1
          simp only [Except.ok.injEq] at h1
          subst h1
          rw [ih.2 ⟨m, l₂, h3, h2, rfl⟩]
          simp

/-- code of scopes whose parts have the right braces -/
theorem lay_bal {go : Nat → Except Err (List Nat)} :
    ∀ q l, (∀ n ∈ q, (P.nd n).op.isEnd = true → ∀ b as, (P.nd n).args = b :: as → ∀ l, go (P.scope b) = .ok l → Opens (fun x => (P.nd x).op) b l) →
      (∀ n ∈ q, (P.nd n).op.begins = false) →
      (∀ n ∈ q, (P.nd n).op.isEnd = true → ∀ b as, (P.nd n).args = b :: as → ((P.nd n).op = .loopEnd ↔ (P.nd b).op = .loopStart)) →
      lay P go q = .ok l → Bal (fun x => (P.nd x).op) l := by
  intro q
  induction q with
  | nil => intro l _ _ _ h; simp [lay] at h; subst h; exact Bal.nil _
  | cons n q ih =>
    intro l hgo hb hm h
    have ih' := fun l h => ih l (fun x hx => hgo x (by simp [hx])) (fun x hx => hb x (by simp [hx])) (fun x hx => hm x (by simp [hx])) h
    have hbn := hb n (by simp)
    unfold lay at h
    split at h
    · rename_i he
      split at h
      · cases h
      · rename_i b as hargs
        split at h
        · cases h
        · rename_i block hblk
          split at h
          · cases h
          · rename_i m hm'
            simp only [Except.ok.injEq] at h
            subst h
            have ho := hgo n (by simp) he b as hargs block hblk
            have hk := hm n (by simp) he b as hargs
            have : Bal (fun x => (P.nd x).op) (block ++ [n]) := by
              unfold Opens at ho
              by_cases hl : (P.nd n).op = .loopEnd
              · rw [if_pos (hk.1 hl)] at ho
                exact ho.append (Bal.one (.inl hbn) (by simp only [hl]; rfl))
              · rw [if_neg (fun h => hl (hk.2 h))] at ho
                have hen : (P.nd n).op = .endIf := by
                  cases hop : (P.nd n).op <;> rw [hop] at he hbn hl <;> simp_all [Op.isEnd, Op.ends, Op.begins]
                intro it S
                obtain ⟨t, F, ht⟩ := ho it S
                exact ⟨t, by rw [runs_append, ht]; simp [runs, hen]⟩
            have h2 := this.append (ih' m hm')
            rw [List.append_assoc] at h2
            exact h2
    · rename_i he
      split at h
      · cases h
      · rename_i m hm'
        simp only [Except.ok.injEq] at h
        subst h
        have : Bal (fun x => (P.nd x).op) [n] := Bal.one (.inl hbn) (by
          simp only [Op.isEnd, Bool.or_eq_true, not_or, Bool.not_eq_true] at he
          exact he.1)
        exact this.append (ih' m hm')

theorem begins_cases {o : Op} (h : o.begins = true) : o = .loopStart ∨ (∃ rs, o = .startIf rs) ∨ (∃ rs, o = .elseIf rs) ∨ o = .els := by
  cases o <;> simp_all [Op.begins]

theorem flat_opens (hS : Shape P queue) : ∀ f b l q, P.scope b ≠ 0 → queue (P.scope b) = b :: q → flat P queue f (P.scope b) = .ok l →
    Opens (fun x => (P.nd x).op) b l := by
  intro f
  induction f with
  | zero => intro b l q _ _ h; simp [flat] at h
  | succ f ih =>
    intro b l q h0 hq h
    unfold flat at h
    rw [hq] at h
    obtain ⟨hb, -, hrest⟩ := hS.first _ h0 b q hq
    have inner : ∀ n ∈ b :: q, (P.nd n).op.isEnd = true → ∀ b' as, (P.nd n).args = b' :: as → ∀ l, flat P queue f (P.scope b') = .ok l →
        Opens (fun x => (P.nd x).op) b' l := by
      intro n hn he b' as hargs l hl
      obtain ⟨b2, as2, q2, h1, h2, h3, -⟩ := hS.ends _ n (by rw [hq]; exact hn) he
      rw [hargs] at h1
      obtain ⟨rfl, -⟩ := List.cons.inj h1
      exact ih b' l q2 h3 h2 hl
    have kinds : ∀ n ∈ b :: q, (P.nd n).op.isEnd = true → ∀ b' as, (P.nd n).args = b' :: as →
        ((P.nd n).op = .loopEnd ↔ (P.nd b').op = .loopStart) := by
      intro n hn he b' as hargs
      obtain ⟨b2, as2, q2, h1, h2, h3, h4, -⟩ := hS.ends _ n (by rw [hq]; exact hn) he
      rw [hargs] at h1
      obtain ⟨rfl, -⟩ := List.cons.inj h1
      exact h4
    have bal : ∀ m, lay P (flat P queue f) q = .ok m → Bal (fun x => (P.nd x).op) m := fun m hm =>
      lay_bal q m (fun n hn => inner n (by simp [hn])) hrest (fun n hn => kinds n (by simp [hn])) hm
    unfold Opens
    rw [lay_cons] at h
    by_cases he : (P.nd b).op.isEnd = true
    · simp only [he, if_true] at h
      split at h
      · cases h
      · rename_i b' as hargs
        split at h
        · cases h
        · rename_i block hblk
          split at h
          · cases h
          · rename_i m hm
            simp only [Except.ok.injEq] at h
            subst h
            have ho := inner b (by simp) he b' as hargs block hblk
            have hk := kinds b (by simp) he b' as hargs
            have hnl : (P.nd b).op ≠ .loopEnd := by intro h'; rw [h'] at hb; cases hb
            unfold Opens at ho
            rw [if_neg (fun h => hnl (hk.2 h))] at ho
            have hns : (P.nd b).op ≠ .loopStart := by intro h'; rw [h'] at he; cases he
            rw [if_neg hns]
            intro it S
            obtain ⟨t, F, ht⟩ := ho it S
            rw [runs_append, ht]
            simp only [Option.bind_some]
            rw [runs_cons]
            rcases begins_cases hb with hop | ⟨rs, hop⟩ | ⟨rs, hop⟩ | hop
            · exact absurd hop hns
            · rw [hop] at he; cases he
            · simp only [hop]
              obtain ⟨t', ht'⟩ := bal m hm it (⟨!F.taken && holds rs it, F.taken || holds rs it⟩ :: S)
              rw [ht']
              exact ⟨_, _, rfl⟩
            · simp only [hop]
              obtain ⟨t', ht'⟩ := bal m hm it (⟨!F.taken, true⟩ :: S)
              rw [ht']
              exact ⟨_, _, rfl⟩
    · simp only [he, Bool.false_eq_true, if_false] at h
      split at h
      · cases h
      · rename_i m hm
        simp only [Except.ok.injEq] at h
        subst h
        rcases begins_cases hb with hop | ⟨rs, hop⟩ | ⟨rs, hop⟩ | hop
        · rw [if_pos hop]
          exact Bal.append (l := [b]) (Bal.one (.inr hop) (by simp only [hop]; rfl)) (bal m hm)
        · rw [if_neg (by simp [hop])]
          intro it S
          rw [runs_cons]
          simp only [hop]
          obtain ⟨t', ht'⟩ := bal m hm it (⟨holds rs it, holds rs it⟩ :: S)
          rw [ht']
          exact ⟨_, _, rfl⟩
        · rw [hop] at he; exact absurd rfl he
        · rw [hop] at he; exact absurd rfl he

end

/-! ### the order of nodes in a list -/

theorem before_cons {n d x : Nat} {l : List Nat} : Before (n :: l) d x ↔ (n = d ∧ x ∈ l) ∨ Before l d x := by
  constructor
  · rintro ⟨l₁, l₂, l₃, h⟩
    cases l₁ with
    | nil =>
      simp only [List.nil_append, List.cons_append, List.cons.injEq] at h
      exact .inl ⟨h.1, by rw [h.2]; simp⟩
    | cons y l₁ =>
      simp only [List.cons_append, List.cons.injEq] at h
      exact .inr ⟨l₁, l₂, l₃, by rw [h.2]⟩
  · rintro (⟨rfl, h⟩ | ⟨l₁, l₂, l₃, h⟩)
    · obtain ⟨a, b, rfl⟩ := List.append_of_mem h
      exact ⟨[], a, b, by simp⟩
    · exact ⟨n :: l₁, l₂, l₃, by rw [h]; simp⟩

theorem before_nil {d x : Nat} : ¬ Before [] d x := by rintro ⟨l₁, l₂, l₃, h⟩; simp at h

theorem before_append {d x : Nat} {l m : List Nat} : Before (l ++ m) d x ↔ Before l d x ∨ Before m d x ∨ (d ∈ l ∧ x ∈ m) := by
  induction l with
  | nil => simp [before_nil]
  | cons n l ih =>
    rw [List.cons_append, before_cons, before_cons, ih]
    constructor
    · rintro (⟨rfl, h⟩ | h | h | h)
      · rcases List.mem_append.1 h with h | h
        · exact .inl (.inl ⟨rfl, h⟩)
        · exact .inr (.inr ⟨by simp, h⟩)
      · exact .inl (.inr h)
      · exact .inr (.inl h)
      · exact .inr (.inr ⟨by simp [h.1], h.2⟩)
    · rintro ((⟨rfl, h⟩ | h) | h | ⟨h, h'⟩)
      · exact .inl ⟨rfl, by simp [h]⟩
      · exact .inr (.inl h)
      · exact .inr (.inr (.inl h))
      · rcases List.mem_cons.1 h with rfl | h
        · exact .inl ⟨rfl, by simp [h']⟩
        · exact .inr (.inr (.inr ⟨h, h'⟩))

/-! ### code with and without the second conditional -/

/-- the code `l'` is the code `l` without the nodes `b` and `e` -/
structure Rel (op : Nat → Op) (b e : Nat) (l l' : List Nat) : Prop where
  sim : ∀ it S, runs op it S l = runs op it S l'
  perm : l'.Perm (l.filter fun n => decide (n ≠ b) && decide (n ≠ e))
  decl : ∀ d x, op d = .tmpDcl → op x ≠ .tmpDcl → x ≠ b → x ≠ e → Before l d x → Before l' d x

section
variable {op : Nat → Op} {b e : Nat}

theorem Rel.mem {l l' : List Nat} (h : Rel op b e l l') {x : Nat} : x ∈ l' ↔ x ∈ l ∧ x ≠ b ∧ x ≠ e := by
  rw [h.perm.mem_iff]; simp

theorem Rel.refl {l : List Nat} (hb : b ∉ l) (he : e ∉ l) : Rel op b e l l := by
  refine ⟨fun _ _ => rfl, ?_, fun _ _ _ _ _ _ h => h⟩
  rw [List.filter_eq_self.2]
  intro x hx
  simp only [Bool.and_eq_true, decide_eq_true_eq]
  exact ⟨by rintro rfl; exact hb hx, by rintro rfl; exact he hx⟩

theorem Rel.append (hb : op b ≠ .tmpDcl) (he : op e ≠ .tmpDcl) {l l' m m' : List Nat} (h : Rel op b e l l') (h' : Rel op b e m m') :
    Rel op b e (l ++ m) (l' ++ m') := by
  refine ⟨fun it S => ?_, ?_, ?_⟩
  · rw [runs_append, runs_append, h.sim]
    congr 1
    funext r
    rw [h'.sim]
  · rw [List.filter_append]
    exact h.perm.append h'.perm
  · intro d x hd hx hxb hxe hbf
    rw [before_append] at hbf ⊢
    rcases hbf with h1 | h1 | ⟨h1, h2⟩
    · exact .inl (h.decl d x hd hx hxb hxe h1)
    · exact .inr (.inl (h'.decl d x hd hx hxb hxe h1))
    · exact .inr (.inr ⟨h.mem.2 ⟨h1, by rintro rfl; exact hb hd, by rintro rfl; exact he hd⟩, h'.mem.2 ⟨h2, hxb, hxe⟩⟩)

theorem runs_decls {it : Nat} {S : List Frame} : ∀ {ds : List Nat}, (∀ d ∈ ds, op d = .tmpDcl) → runs op it S ds = some ([], S) := by
  intro ds
  induction ds with
  | nil => intro _; unfold runs; rfl
  | cons d ds ih =>
    intro h
    rw [runs_cons, h d (by simp)]
    exact ih fun x hx => h x (by simp [hx])

theorem runs_nil (it : Nat) (S : List Frame) : runs op it S [] = some ([], S) := by unfold runs; rfl

/-- two conditionals with the same condition are joined -/
theorem Rel.two {b1 e1 : Nat} {rs : List (Nat × Nat)} (hb : op b = .startIf rs) (hb1 : op b1 = .startIf rs) (he : op e = .endIf)
    (he1 : op e1 = .endIf) (h1b : b1 ≠ b) (h1e : e1 ≠ e) {ds A A' B B' : List Nat} (hds : ∀ d ∈ ds, op d = .tmpDcl)
    (hA : Rel op b e A A') (hB : Rel op b e B B') (bA : Bal op A) (bB : Bal op B) :
    Rel op b e ((b1 :: A) ++ e1 :: (ds ++ ((b :: B) ++ [e]))) (ds ++ ((b1 :: (A' ++ B')) ++ [e1])) := by
  refine ⟨fun it S => ?_, ?_, ?_⟩
  · obtain ⟨tA, htA⟩ := bA it (⟨holds rs it, holds rs it⟩ :: S)
    obtain ⟨tB, htB⟩ := bB it (⟨holds rs it, holds rs it⟩ :: S)
    have e2 : runs op it (⟨holds rs it, holds rs it⟩ :: S) [e] = some ([], S) := by rw [runs_cons, he]; exact runs_nil it S
    have e3 : runs op it (⟨holds rs it, holds rs it⟩ :: S) [e1] = some ([], S) := by rw [runs_cons, he1]; exact runs_nil it S
    have r2 : runs op it S ((b :: B) ++ [e]) = some (tB, S) := by
      rw [List.cons_append, runs_cons, hb]
      simp only
      rw [runs_append, htB]
      simp [e2]
    have r1 : ∀ m, runs op it S ((b1 :: A) ++ e1 :: m) = (runs op it S m).map fun r => (tA ++ r.1, r.2) := by
      intro m
      rw [List.cons_append, runs_cons, hb1]
      simp only
      rw [runs_append, htA]
      simp only [Option.bind_some]
      rw [runs_cons, he1]
    rw [r1, runs_append, runs_decls hds]
    simp only [Option.bind_some]
    rw [r2]
    rw [runs_append, runs_decls hds]
    simp only [Option.bind_some]
    rw [List.cons_append, runs_cons, hb1]
    simp only
    rw [runs_append, runs_append, ← hA.sim, htA]
    simp only [Option.bind_some]
    rw [← hB.sim, htB]
    simp [e3]
  · have k1 : (fun n => decide (n ≠ b) && decide (n ≠ e)) b1 = true := by
      have : b1 ≠ e := by rintro rfl; rw [he] at hb1; cases hb1
      simp [h1b, this]
    have k2 : (fun n => decide (n ≠ b) && decide (n ≠ e)) e1 = true := by
      have : e1 ≠ b := by rintro rfl; rw [he1] at hb; cases hb
      simp [h1e, this]
    have k3 : (fun n => decide (n ≠ b) && decide (n ≠ e)) b = false := by simp
    have k4 : (fun n => decide (n ≠ b) && decide (n ≠ e)) e = false := by simp
    have k5 : ds.filter (fun n => decide (n ≠ b) && decide (n ≠ e)) = ds := by
      rw [List.filter_eq_self]
      intro x hx
      have := hds x hx
      simp only [Bool.and_eq_true, decide_eq_true_eq]
      constructor
      · rintro rfl; rw [hb] at this; cases this
      · rintro rfl; rw [he] at this; cases this
    simp only [List.filter_append, List.filter_cons, List.filter_nil, k1, k2, k3, k4, k5, if_true, Bool.false_eq_true, if_false,
      List.append_nil]
    rw [List.perm_iff_count]
    intro x
    have c1 := List.perm_iff_count.1 hA.perm x
    have c2 := List.perm_iff_count.1 hB.perm x
    simp only [List.count_append, List.count_cons, List.count_nil, c1, c2]
    omega
  · intro d x hd hx hxb hxe hbf
    have n1 : b1 ≠ d := by rintro rfl; rw [hd] at hb1; cases hb1
    have n2 : e1 ≠ d := by rintro rfl; rw [hd] at he1; cases he1
    have n3 : b ≠ d := by rintro rfl; rw [hd] at hb; cases hb
    have n4 : e ≠ d := by rintro rfl; rw [hd] at he; cases he
    have n5 : x ∉ ds := fun h => hx (hds x h)
    have n6 : ¬ Before ds d x := by
      rintro ⟨l₁, l₂, l₃, rfl⟩
      exact n5 (by simp)
    have mA : d ∈ A → d ∈ A' := fun h => hA.mem.2 ⟨h, n3.symm, n4.symm⟩
    have mB : x ∈ B → x ∈ B' := fun h => hB.mem.2 ⟨h, hxb, hxe⟩
    simp only [List.cons_append, before_cons, before_append, before_nil, List.mem_append, List.mem_cons, List.not_mem_nil, or_false, n1, n2,
      n3, n4, false_and, false_or, n5, n6, hxb, hxe, and_false] at hbf ⊢
    rcases hbf with h | h | h
    · exact .inl (.inl (.inl (hA.decl d x hd hx hxb hxe h)))
    · rcases h with h | h
      · exact .inl (.inl (.inr (.inl (hB.decl d x hd hx hxb hxe h))))
      · exact .inr ⟨h.1, .inr (.inl (.inr (mB h.2)))⟩
    · rcases h with ⟨h1, h2 | h2⟩
      · subst h2; exact .inl (.inr ⟨.inl (mA h1), rfl⟩)
      · exact .inl (.inl (.inr (.inr ⟨mA h1, mB h2⟩)))

end

/-! ### one step -/

/-- the state before and after the conditional ending with `e` was joined with the one ending with `e1` -/
structure Joins (P : Placed) (queue : Nat → List Nat) (P' : Placed) (queue' : Nat → List Nat) (c e1 b1 e b : Nat) (rs : List (Nat × Nat))
    (pre ds post q1 qs : List Nat) : Prop where
  oe : (P.nd e).op = .endIf
  oe1 : (P.nd e1).op = .endIf
  ob : (P.nd b).op = .startIf rs
  ob1 : (P.nd b1).op = .startIf rs
  args : ∃ as, (P.nd e).args = b :: as
  args1 : ∃ as, (P.nd e1).args = b1 :: as
  qc : queue c = pre ++ e1 :: (ds ++ e :: post)
  hds : ∀ d ∈ ds, (P.nd d).op = .tmpDcl
  hqs : queue (P.scope b) = b :: qs
  hq1 : queue (P.scope b1) = b1 :: q1
  qc' : queue' c = pre ++ (ds ++ e1 :: post)
  qs' : queue' (P.scope b) = []
  q1' : queue' (P.scope b1) = b1 :: (q1 ++ qs)
  other : ∀ x, x ≠ c → x ≠ P.scope b → x ≠ P.scope b1 → queue' x = queue x
  op' : ∀ n, n ≠ e → (P'.nd n).op = (P.nd n).op
  oe' : (P'.nd e).op = .plain
  head' : ∀ n, n ≠ e → (P.nd n).op.isEnd = true → ∀ b as, (P.nd n).args = b :: as → ∃ as', (P'.nd n).args = b :: as' ∧
    ∀ r ∈ as', r ∈ as ∨ r ∈ (P.nd e).args.tail
  ne' : ∀ r, (P.nd r).op = .condRes → (P.nd r).args ≠ [] → (P'.nd r).args ≠ []
  scope' : ∀ x, P.scope x ≠ P.scope b → P'.scope x = P.scope x
  path' : P'.path = P.path

section
variable {P P' : Placed} {queue queue' : Nat → List Nat} {c e1 b1 e b : Nat} {rs : List (Nat × Nat)} {pre ds post q1 qs : List Nat}

/-- consequences for the scopes -/
structure Apart (P : Placed) (queue : Nat → List Nat) (c e1 b1 e b : Nat) : Prop where
  s0 : P.scope b ≠ 0
  s10 : P.scope b1 ≠ 0
  ee : e1 ≠ e
  ss : P.scope b ≠ P.scope b1
  cs : c ≠ P.scope b
  cs1 : c ≠ P.scope b1
  bb : b1 ≠ b
  ente : Join.ent P e = P.scope b
  ente1 : Join.ent P e1 = P.scope b1
  me : e ∈ queue c
  me1 : e1 ∈ queue c

theorem Joins.apart (hS : Shape P queue) (hJ : Joins P queue P' queue' c e1 b1 e b rs pre ds post q1 qs) : Apart P queue c e1 b1 e b := by
  have me : e ∈ queue c := by rw [hJ.qc]; simp
  have me1 : e1 ∈ queue c := by rw [hJ.qc]; simp
  have ie : (P.nd e).op.isEnd = true := by rw [hJ.oe]; rfl
  have ie1 : (P.nd e1).op.isEnd = true := by rw [hJ.oe1]; rfl
  have ent0 : ent P e = P.scope b := by obtain ⟨as, h⟩ := hJ.args; unfold ent; rw [h]
  have ent1 : ent P e1 = P.scope b1 := by obtain ⟨as, h⟩ := hJ.args1; unfold ent; rw [h]
  have ee : e1 ≠ e := by
    have hn := hS.nodup c
    rw [hJ.qc] at hn
    have := (List.nodup_append.1 hn).2.1
    intro h
    rw [List.nodup_cons] at this
    exact this.1 (by rw [h]; simp)
  have ss : P.scope b ≠ P.scope b1 := by
    intro h
    exact ee (hS.uniq c c e1 me1 e me ie1 ie (by rw [ent0, ent1, h]))
  obtain ⟨R, hR⟩ := hS.rank
  have r1 := hR c e me ie
  have r2 := hR c e1 me1 ie1
  rw [ent0] at r1
  rw [ent1] at r2
  have s0 : P.scope b ≠ 0 := by
    obtain ⟨b', as, q, h1, -, h3, -⟩ := hS.ends c e me ie
    have : ent P e = P.scope b' := by unfold ent; rw [h1]
    rw [← ent0, this]; exact h3
  have s10 : P.scope b1 ≠ 0 := by
    obtain ⟨b', as, q, h1, -, h3, -⟩ := hS.ends c e1 me1 ie1
    have : ent P e1 = P.scope b' := by unfold ent; rw [h1]
    rw [← ent1, this]; exact h3
  exact ⟨s0, s10, ee, ss, by intro h; rw [← h] at r1; omega, by intro h; rw [← h] at r2; omega, by rintro rfl; exact ss rfl, ent0, ent1, me, me1⟩

theorem ent_eq {n b' : Nat} {as : List Nat} (h : (P.nd n).args = b' :: as) : ent P n = P.scope b' := by unfold ent; rw [h]

/-- parts without the joined conditionals -/
theorem Joins.lay (hJ : Joins P queue P' queue' c e1 b1 e b rs pre ds post q1 qs) {f : Nat}
    (ih : ∀ x, x ≠ P.scope b → x ≠ P.scope b1 → ∀ l, flat P queue f x = .ok l →
      ∃ l', flat P' queue' f x = .ok l' ∧ Rel (fun x => (P.nd x).op) b e l l') :
    ∀ q l, (∀ n ∈ q, n ≠ e ∧ n ≠ b) → (∀ n ∈ q, (P.nd n).op.isEnd = true → ent P n ≠ P.scope b ∧ ent P n ≠ P.scope b1) →
      lay P (flat P queue f) q = .ok l → ∃ l', Order.lay P' (flat P' queue' f) q = .ok l' ∧ Rel (fun x => (P.nd x).op) b e l l' := by
  have hb : (P.nd b).op ≠ .tmpDcl := by rw [hJ.ob]; simp
  have he : (P.nd e).op ≠ .tmpDcl := by rw [hJ.oe]; simp
  intro q
  induction q with
  | nil =>
    intro l _ _ h
    simp only [Order.lay, Except.ok.injEq] at h
    subst h
    exact ⟨[], rfl, Rel.refl (by simp) (by simp)⟩
  | cons n q ihq =>
    intro l hn hx h
    obtain ⟨hne, hnb⟩ := hn n (by simp)
    have one : Rel (fun x => (P.nd x).op) b e [n] [n] := Rel.refl (by simpa using hnb.symm) (by simpa using hne.symm)
    have ihq' := fun l h => ihq l (fun x hx => hn x (by simp [hx])) (fun x hm => hx x (by simp [hm])) h
    rw [lay_cons] at h ⊢
    have hop := hJ.op' n hne
    by_cases hen : (P.nd n).op.isEnd = true
    · have hh := hJ.head' n hne hen
      simp only [hop, hen, if_true] at h ⊢
      split at h
      · cases h
      · rename_i b' as hargs
        obtain ⟨as', hargs', -⟩ := hh b' as hargs
        have hent := hx n (by simp) hen
        rw [ent_eq hargs] at hent
        simp only [hargs', hJ.scope' b' hent.1]
        split at h
        · cases h
        · rename_i block hblk
          obtain ⟨block', hblk', hrel⟩ := ih _ hent.1 hent.2 block hblk
          rw [hblk']
          simp only
          split at h
          · cases h
          · rename_i m hm
            obtain ⟨m', hm', hrel'⟩ := ihq' m hm
            simp only [Except.ok.injEq] at h
            subst h
            rw [hm']
            exact ⟨_, rfl, hrel.append hb he (one.append hb he hrel')⟩
    · simp only [hop, hen, Bool.false_eq_true, if_false] at h ⊢
      split at h
      · cases h
      · rename_i m hm
        obtain ⟨m', hm', hrel'⟩ := ihq' m hm
        simp only [Except.ok.injEq] at h
        subst h
        rw [hm']
        exact ⟨_, rfl, one.append hb he hrel'⟩

theorem lay_decls (Q : Placed) (go : Nat → Except Err (List Nat)) : ∀ {ds : List Nat}, (∀ d ∈ ds, (Q.nd d).op = .tmpDcl) →
    Order.lay Q go ds = .ok ds := by
  intro ds
  induction ds with
  | nil => intro _; rfl
  | cons d ds ih =>
    intro hd
    rw [lay_cons, hd d (by simp), ih fun y hy => hd y (by simp [hy])]
    rfl

theorem Joins.flat (hS : Shape P queue) (hJ : Joins P queue P' queue' c e1 b1 e b rs pre ds post q1 qs) : ∀ f x, x ≠ P.scope b →
    x ≠ P.scope b1 → ∀ l, flat P queue f x = .ok l → ∃ l', Order.flat P' queue' f x = .ok l' ∧ Rel (fun x => (P.nd x).op) b e l l' := by
  have hap := hJ.apart hS
  have hb : (P.nd b).op ≠ .tmpDcl := by rw [hJ.ob]; simp
  have he : (P.nd e).op ≠ .tmpDcl := by rw [hJ.oe]; simp
  have ie : (P.nd e).op.isEnd = true := by rw [hJ.oe]; rfl
  have ie1 : (P.nd e1).op.isEnd = true := by rw [hJ.oe1]; rfl
  have mb : b ∈ queue (P.scope b) := by rw [hJ.hqs]; simp
  -- nodes of other scopes
  have away : ∀ x n, n ∈ queue x → (n ≠ e ∧ n ≠ e1) → (P.nd n).op.isEnd = true → ent P n ≠ P.scope b ∧ ent P n ≠ P.scope b1 := by
    intro x n hn h1 hen
    constructor
    · intro h; exact h1.1 (hS.uniq x c n hn e hap.me hen ie (by rw [h, hap.ente]))
    · intro h; exact h1.2 (hS.uniq x c n hn e1 hap.me1 hen ie1 (by rw [h, hap.ente1]))
  have notc : ∀ x n, x ≠ c → n ∈ queue x → n ≠ e ∧ n ≠ e1 := by
    intro x n hx hn
    constructor
    · rintro rfl; exact hx (hS.place _ _ _ hn hap.me)
    · rintro rfl; exact hx (hS.place _ _ _ hn hap.me1)
  intro f
  induction f using Nat.strongRecOn with
  | _ f IH =>
    intro x hxs hxs1 l h
    cases f with
    | zero => simp [Order.flat] at h
    | succ f =>
      unfold Order.flat at h ⊢
      by_cases hxc : x = c
      · subst hxc
        rw [hJ.qc] at h
        rw [hJ.qc']
        have hnd := hS.nodup x
        rw [hJ.qc] at hnd
        -- the parts of the code
        obtain ⟨Lp, L1, g1, g2, rfl⟩ := lay_append.1 h
        have hpre : ∀ n ∈ pre, n ≠ e ∧ n ≠ e1 := by
          intro n hn
          have := (List.nodup_append.1 hnd).2.2 n hn
          exact ⟨this e (by simp), this e1 (by simp)⟩
        have hnb : ∀ n ∈ queue x, n ≠ b := by
          rintro n hn rfl
          exact hxs (hS.place _ _ _ hn mb)
        have hnd2 := (List.nodup_append.1 hnd).2.1
        rw [List.nodup_cons] at hnd2
        have hnd3 := List.nodup_append.1 hnd2.2
        have hnd4 := hnd3.2.1
        rw [List.nodup_cons] at hnd4
        have hpost : ∀ n ∈ post, n ≠ e ∧ n ≠ e1 := by
          intro n hn
          constructor
          · rintro rfl; exact hnd4.1 hn
          · rintro rfl; exact hnd2.1 (by simp [hn])
        have hq : ∀ n, n ∈ pre ∨ n ∈ ds ∨ n ∈ post → n ∈ queue x := by
          intro n hn
          rw [hJ.qc]
          rcases hn with h | h | h <;> simp [h]
        obtain ⟨Lp', k1, k2⟩ := hJ.lay (IH f (by omega)) pre Lp (fun n hn => ⟨(hpre n hn).1, hnb n (hq n (.inl hn))⟩)
          (fun n hn => away x n (hq n (.inl hn)) (hpre n hn)) g1
        -- the first conditional
        obtain ⟨as1, ha1⟩ := hJ.args1
        obtain ⟨as, ha⟩ := hJ.args
        rw [lay_cons] at g2
        simp only [ie1, if_true, ha1] at g2
        split at g2
        · cases g2
        rename_i block1 hblk1
        split at g2
        · cases g2
        rename_i L2 g3
        simp only [Except.ok.injEq] at g2
        subst g2
        obtain ⟨Ld, L3, g4, g5, rfl⟩ := lay_append.1 g3
        rw [lay_cons] at g5
        simp only [ie, if_true, ha] at g5
        split at g5
        · cases g5
        rename_i block hblk
        split at g5
        · cases g5
        rename_i Lq g6
        simp only [Except.ok.injEq] at g5
        subst g5
        obtain ⟨Lq', k3, k4⟩ := hJ.lay (IH f (by omega)) post Lq (fun n hn => ⟨(hpost n hn).1, hnb n (hq n (.inr (.inr hn)))⟩)
          (fun n hn => away x n (hq n (.inr (.inr hn))) (hpost n hn)) g6
        have hde : ∀ d ∈ ds, d ≠ e := by
          rintro d hd rfl
          have := hJ.hds d hd
          rw [hJ.oe] at this
          cases this
        rw [lay_decls P _ hJ.hds] at g4
        simp only [Except.ok.injEq] at g4
        subst g4
        cases f with
        | zero => simp [Order.flat] at hblk1
        | succ f =>
          unfold Order.flat at hblk1 hblk
          rw [hJ.hq1, lay_cons] at hblk1
          rw [hJ.hqs, lay_cons] at hblk
          have nb1 : (P.nd b1).op.isEnd = false := by rw [hJ.ob1]; rfl
          have nb : (P.nd b).op.isEnd = false := by rw [hJ.ob]; rfl
          simp only [nb1, nb, Bool.false_eq_true, if_false] at hblk1 hblk
          split at hblk1
          · cases hblk1
          rename_i A hA
          split at hblk
          · cases hblk
          rename_i B hB
          simp only [Except.ok.injEq] at hblk1 hblk
          subst hblk1 hblk
          have r1 : ∀ n ∈ q1, n ∈ queue (P.scope b1) := fun n hn => by rw [hJ.hq1]; simp [hn]
          have r2 : ∀ n ∈ qs, n ∈ queue (P.scope b) := fun n hn => by rw [hJ.hqs]; simp [hn]
          have ndb := hS.nodup (P.scope b)
          rw [hJ.hqs, List.nodup_cons] at ndb
          obtain ⟨A', k5, k6⟩ := hJ.lay (IH f (by omega)) q1 A (fun n hn => ⟨(notc _ n hap.cs1.symm (r1 n hn)).1, by
              rintro rfl; exact hap.ss (hS.place _ _ _ mb (r1 n hn))⟩)
            (fun n hn => away _ n (r1 n hn) (notc _ n hap.cs1.symm (r1 n hn))) hA
          obtain ⟨B', k7, k8⟩ := hJ.lay (IH f (by omega)) qs B (fun n hn => ⟨(notc _ n hap.cs.symm (r2 n hn)).1, by
              rintro rfl; exact ndb.1 hn⟩)
            (fun n hn => away _ n (r2 n hn) (notc _ n hap.cs.symm (r2 n hn))) hB
          have bal : ∀ s b' q m, s ≠ 0 → queue s = b' :: q → Order.lay P (Order.flat P queue f) q = .ok m →
              Bal (fun x => (P.nd x).op) m := by
            intro s b' q m hs hqq hm
            refine lay_bal q m ?_ (hS.first s hs b' q hqq).2.2 ?_ hm
            · intro n hn hen b2 as2 hargs l hl
              obtain ⟨b3, as3, q3, t1, t2, t3, -⟩ := hS.ends s n (by rw [hqq]; simp [hn]) hen
              rw [hargs] at t1
              obtain ⟨rfl, -⟩ := List.cons.inj t1
              exact flat_opens hS f b2 l q3 t3 t2 hl
            · intro n hn hen b2 as2 hargs
              obtain ⟨b3, as3, q3, t1, t2, t3, t4, -⟩ := hS.ends s n (by rw [hqq]; simp [hn]) hen
              rw [hargs] at t1
              obtain ⟨rfl, -⟩ := List.cons.inj t1
              exact t4
          have two := Rel.two (op := fun x => (P.nd x).op) hJ.ob hJ.ob1 hJ.oe hJ.oe1 hap.bb hap.ee hJ.hds k6 k8
            (bal _ _ _ A hap.s10 hJ.hq1 hA) (bal _ _ _ B hap.s0 hJ.hqs hB)
          have whole := k2.append hb he (two.append hb he k4)
          refine ⟨Lp' ++ ((ds ++ ((b1 :: (A' ++ B')) ++ [e1])) ++ Lq'), ?_, ?_⟩
          · refine lay_append.2 ⟨Lp', _, k1, ?_, rfl⟩
            obtain ⟨as1', ha1', -⟩ := hJ.head' e1 hap.ee ie1 b1 as1 ha1
            refine lay_append.2 ⟨ds, (b1 :: (A' ++ B')) ++ e1 :: Lq', lay_decls P' _ (fun d hd => by rw [hJ.op' d (hde d hd)]; exact hJ.hds d hd), ?_,
              by simp⟩
            rw [lay_cons]
            simp only [hJ.op' e1 hap.ee, ie1, if_true, ha1', hJ.scope' b1 hap.ss.symm]
            have : Order.flat P' queue' (f + 1) (P.scope b1) = .ok (b1 :: (A' ++ B')) := by
              unfold Order.flat
              rw [hJ.q1', lay_cons]
              have hb1e : b1 ≠ e := by
                intro h'
                have := hJ.ob1
                rw [h', hJ.oe] at this
                cases this
              simp only [hJ.op' b1 hb1e, nb1, Bool.false_eq_true, if_false]
              rw [lay_append.2 ⟨A', B', k5, k7, rfl⟩]
            rw [this]
            simp only
            rw [k3]
          · have e0 : Lp ++ ((b1 :: A) ++ e1 :: (ds ++ ((b :: B) ++ e :: Lq))) =
                Lp ++ (((b1 :: A) ++ e1 :: (ds ++ ((b :: B) ++ [e]))) ++ Lq) := by simp
            rw [e0]
            exact whole
      · rw [hJ.other x hxc hxs hxs1]
        refine hJ.lay (IH f (by omega)) _ _ (fun n hn => ⟨(notc x n hxc hn).1, ?_⟩) (fun n hn => away x n hn (notc x n hxc hn)) h
        rintro rfl
        exact hxs (hS.place _ _ _ hn mb)

/-- nodes in the queues after the step -/
theorem Joins.mem (hS : Shape P queue) (hJ : Joins P queue P' queue' c e1 b1 e b rs pre ds post q1 qs) {x c' : Nat} (h : x ∈ queue' c') :
    x ≠ e ∧ x ≠ b ∧ c' ≠ P.scope b ∧ (x ∈ queue c' ∨ (c' = P.scope b1 ∧ x ∈ queue (P.scope b))) := by
  have hap := hJ.apart hS
  have mb : b ∈ queue (P.scope b) := by rw [hJ.hqs]; simp
  by_cases hs : c' = P.scope b
  · rw [hs, hJ.qs'] at h; cases h
  by_cases hc : c' = c
  · subst hc
    have hx : x ∈ queue c' := by
      rw [hJ.qc'] at h
      rw [hJ.qc]
      simp only [List.mem_append, List.mem_cons] at h ⊢
      rcases h with h | h | h | h <;> simp [h]
    refine ⟨?_, ?_, hs, .inl hx⟩
    · rintro rfl
      have hnd := hS.nodup c'
      rw [hJ.qc] at hnd
      rw [hJ.qc'] at h
      simp only [List.mem_append, List.mem_cons] at h
      have h1 := List.nodup_append.1 hnd
      have h2 := h1.2.1
      rw [List.nodup_cons] at h2
      have h3 := List.nodup_append.1 h2.2
      have h4 := h3.2.1
      rw [List.nodup_cons] at h4
      rcases h with h | h | h | h
      · exact h1.2.2 x h x (by simp) rfl
      · exact h3.2.2 x h x (by simp) rfl
      · exact hap.ee h.symm
      · exact h4.1 h
    · rintro rfl; exact hs (hS.place _ _ _ hx mb)
  by_cases hs1 : c' = P.scope b1
  · subst hs1
    rw [hJ.q1'] at h
    simp only [List.mem_cons, List.mem_append] at h
    have hx : x ∈ queue (P.scope b1) ∨ x ∈ qs := by
      rcases h with h | h | h
      · left; rw [hJ.hq1, h]; simp
      · left; rw [hJ.hq1]; simp [h]
      · exact .inr h
    rcases hx with hx | hx
    · refine ⟨?_, ?_, hs, .inl hx⟩
      · rintro rfl; exact hc (hS.place _ _ _ hx hap.me)
      · rintro rfl; exact hs (hS.place _ _ _ hx mb)
    · have hx' : x ∈ queue (P.scope b) := by rw [hJ.hqs]; simp [hx]
      refine ⟨?_, ?_, hs, .inr ⟨rfl, hx'⟩⟩
      · rintro rfl; exact hap.cs (hS.place _ _ _ hap.me hx')
      · rintro rfl
        have := hS.nodup (P.scope x)
        rw [hJ.hqs, List.nodup_cons] at this
        exact this.1 hx
  · rw [hJ.other c' hc hs hs1] at h
    refine ⟨?_, ?_, hs, .inl h⟩
    · rintro rfl; exact hc (hS.place _ _ _ h hap.me)
    · rintro rfl; exact hs (hS.place _ _ _ h mb)

/-- the shape is kept -/
theorem Joins.shape (hS : Shape P queue) (hJ : Joins P queue P' queue' c e1 b1 e b rs pre ds post q1 qs) : Shape P' queue' := by
  have hap := hJ.apart hS
  have ie : (P.nd e).op.isEnd = true := by rw [hJ.oe]; rfl
  have ie1 : (P.nd e1).op.isEnd = true := by rw [hJ.oe1]; rfl
  have mb : b ∈ queue (P.scope b) := by rw [hJ.hqs]; simp
  have src : ∀ {x c'}, x ∈ queue' c' → ∃ c'', x ∈ queue c'' := by
    intro x c' h
    rcases (hJ.mem hS h).2.2.2 with h | h
    · exact ⟨_, h⟩
    · exact ⟨_, h.2⟩
  have hpre : c ≠ 0 → ∃ b0 pre', pre = b0 :: pre' := by
    intro h0
    cases pre with
    | cons b0 pre' => exact ⟨b0, pre', rfl⟩
    | nil =>
      have := (hS.first c h0 e1 _ hJ.qc).1
      rw [hJ.oe1] at this
      cases this
  -- ends of scopes
  have ends : ∀ {x c'}, x ∈ queue' c' → (P'.nd x).op.isEnd = true → (P.nd x).op.isEnd = true ∧ ∃ b' as as', (P.nd x).args = b' :: as ∧
      (P'.nd x).args = b' :: as' ∧ P'.scope b' = P.scope b' ∧ P.scope b' ≠ P.scope b ∧ (∀ r ∈ as', r ∈ as ∨ r ∈ (P.nd e).args.tail) := by
    intro x c' h hen
    obtain ⟨hxe, hxb, -, -⟩ := hJ.mem hS h
    rw [hJ.op' x hxe] at hen
    obtain ⟨c'', hc''⟩ := src h
    obtain ⟨b', as, q, h1, h2, h3, -⟩ := hS.ends c'' x hc'' hen
    obtain ⟨as', h4, h5⟩ := hJ.head' x hxe hen b' as h1
    have hne : P.scope b' ≠ P.scope b := by
      intro h'
      exact hxe (hS.uniq c'' c x hc'' e hap.me hen ie (by rw [ent_eq h1, hap.ente, h']))
    exact ⟨hen, b', as, as', h1, h4, hJ.scope' b' hne, hne, h5⟩
  have ents : ∀ {x c'}, x ∈ queue' c' → (P'.nd x).op.isEnd = true → ent P' x = ent P x := by
    intro x c' h hen
    obtain ⟨-, b', as, as', h1, h2, h3, -⟩ := ends h hen
    rw [ent_eq h1, ent_eq h2, h3]
  have keep : ∀ {s' b' q}, s' ≠ P.scope b → s' ≠ 0 → queue s' = b' :: q → ∃ q', queue' s' = b' :: q' := by
    intro s' b' q hs h0 hq
    by_cases hc : s' = c
    · subst hc
      obtain ⟨b0, pre', rfl⟩ := hpre h0
      rw [hJ.qc] at hq
      simp only [List.cons_append, List.cons.injEq] at hq
      exact ⟨_, by rw [hJ.qc', ← hq.1]; rfl⟩
    · by_cases hs1 : s' = P.scope b1
      · subst hs1
        rw [hJ.hq1] at hq
        simp only [List.cons.injEq] at hq
        exact ⟨_, by rw [hJ.q1', ← hq.1]⟩
      · exact ⟨q, by rw [hJ.other s' hc hs hs1]; exact hq⟩
  refine ⟨?_, ?_, ?_, ?_, ?_, ?_, ?_, ?_⟩
  · intro c' h0 b' q' hq'
    have hmb := hJ.mem hS (show b' ∈ queue' c' by rw [hq']; simp)
    have hrest : ∀ x ∈ q', (P'.nd x).op = (P.nd x).op := fun x hx => hJ.op' x (hJ.mem hS (show x ∈ queue' c' by rw [hq']; simp [hx])).1
    rw [hJ.op' b' hmb.1]
    by_cases hc : c' = c
    · subst hc
      obtain ⟨b0, pre', rfl⟩ := hpre h0
      rw [hJ.qc'] at hq'
      simp only [List.cons_append, List.cons.injEq] at hq'
      obtain ⟨rfl, hq'⟩ := hq'
      obtain ⟨f1, f2, f3⟩ := hS.first c' h0 b0 _ hJ.qc
      refine ⟨f1, (hJ.scope' b0 (by rw [f2]; exact hap.cs)).trans f2, fun x hx => ?_⟩
      rw [hrest x hx]
      apply f3
      rw [← hq'] at hx
      simp only [List.mem_append, List.mem_cons] at hx ⊢
      rcases hx with h | h | h | h <;> simp [h]
    · by_cases hs1 : c' = P.scope b1
      · subst hs1
        rw [hJ.q1'] at hq'
        simp only [List.cons.injEq] at hq'
        obtain ⟨rfl, hq'⟩ := hq'
        obtain ⟨f1, f2, f3⟩ := hS.first _ h0 b1 _ hJ.hq1
        refine ⟨f1, hJ.scope' b1 hap.ss.symm, fun x hx => ?_⟩
        rw [hrest x hx]
        rw [← hq'] at hx
        rcases List.mem_append.1 hx with h | h
        · exact f3 x h
        · exact (hS.first _ hap.s0 b _ hJ.hqs).2.2 x h
      · have hq := hJ.other c' hc hmb.2.2.1 hs1
        rw [hq'] at hq
        obtain ⟨f1, f2, f3⟩ := hS.first c' h0 b' q' hq.symm
        exact ⟨f1, (hJ.scope' b' (by rw [f2]; exact hmb.2.2.1)).trans f2, fun x hx => by rw [hrest x hx]; exact f3 x hx⟩
  · intro x hx
    obtain ⟨h1, -, -, h2⟩ := hJ.mem hS hx
    rw [hJ.op' x h1]
    rcases h2 with h2 | h2
    · exact hS.top x h2
    · exact absurd h2.1.symm hap.s10
  · intro c' x hx hen
    obtain ⟨hen', b', as, as', h1, h2, h3, h4, h5⟩ := ends hx hen
    obtain ⟨c'', hc''⟩ := src hx
    obtain ⟨b2, as2, q2, k1, k2, k3, k4, k6⟩ := hS.ends c'' x hc'' hen'
    rw [h1] at k1
    obtain ⟨rfl, rfl⟩ := List.cons.inj k1
    obtain ⟨q', hq'⟩ := keep h4 k3 k2
    have hb'e : b' ≠ e := by
      rintro rfl
      exact hap.cs1.elim (by
        have := (hS.first _ k3 b' _ k2).1
        rw [hJ.oe] at this
        cases this)
    rw [hJ.op' x (hJ.mem hS hx).1]
    refine ⟨b', as', q', h2, by rw [h3]; exact hq', by rw [h3]; exact k3, by rw [hJ.op' b' hb'e]; exact k4,
      fun ho r hr => ?_⟩
    have hr' : (P.nd r).op = .condRes ∧ (P.nd r).args ≠ [] := by
      rcases h5 r hr with h | h
      · exact k6 ho r h
      · obtain ⟨b3, as3, q3, t1, -, -, -, t6⟩ := hS.ends c e hap.me ie
        rw [t1] at h
        exact t6 hJ.oe r h
    have hre : r ≠ e := by
      rintro rfl
      rw [hJ.oe] at hr'
      cases hr'.1
    exact ⟨by rw [hJ.op' r hre]; exact hr'.1, hJ.ne' r hr'.1 hr'.2⟩
  · intro c1 c2 x hx y hy hxe hye hent
    rw [ents hx hxe, ents hy hye] at hent
    obtain ⟨_, hcx⟩ := src hx
    obtain ⟨_, hcy⟩ := src hy
    exact hS.uniq _ _ x hcx y hcy (ends hx hxe).1 (ends hy hye).1 hent
  · intro c1 c2 x hx hy
    obtain ⟨-, -, n1, h1⟩ := hJ.mem hS hx
    obtain ⟨-, -, n2, h2⟩ := hJ.mem hS hy
    rcases h1 with h1 | ⟨h1, h1'⟩
    · rcases h2 with h2 | ⟨h2, h2'⟩
      · exact hS.place _ _ _ h1 h2
      · exact absurd (hS.place _ _ _ h1 h2') n1
    · rcases h2 with h2 | ⟨h2, h2'⟩
      · exact absurd (hS.place _ _ _ h2 h1') n2
      · rw [h1, h2]
  · intro c'
    by_cases hs : c' = P.scope b
    · rw [hs, hJ.qs']; exact List.nodup_nil
    by_cases hc : c' = c
    · subst hc
      rw [hJ.qc']
      have hnd := hS.nodup c'
      rw [hJ.qc] at hnd
      have hp : (pre ++ e1 :: (ds ++ e :: post)).Perm (e :: (pre ++ (ds ++ e1 :: post))) := by
        rw [List.perm_iff_count]
        intro x
        simp only [List.count_append, List.count_cons]
        omega
      exact (List.nodup_cons.1 (hp.nodup_iff.1 hnd)).2
    by_cases hs1 : c' = P.scope b1
    · subst hs1
      rw [hJ.q1']
      have n1 := hS.nodup (P.scope b1)
      have n2 := hS.nodup (P.scope b)
      rw [hJ.hq1] at n1
      rw [hJ.hqs] at n2
      have : (b1 :: (q1 ++ qs)) = (b1 :: q1) ++ qs := rfl
      rw [this]
      refine List.nodup_append.2 ⟨n1, (List.nodup_cons.1 n2).2, ?_⟩
      rintro x hx y hy rfl
      exact hs (hS.place _ _ x (by rw [hJ.hq1]; exact hx) (by rw [hJ.hqs]; simp [hy]))
    · rw [hJ.other c' hc hs hs1]; exact hS.nodup c'
  · obtain ⟨R, hR⟩ := hS.rank
    have re := hR c e hap.me ie
    have re1 := hR c e1 hap.me1 ie1
    rw [hap.ente] at re
    rw [hap.ente1] at re1
    refine ⟨fun x => if x = P.scope b1 then max (R (P.scope b1)) (R (P.scope b)) else R x, fun c' x hx hen => ?_⟩
    have hen' := (ends hx hen).1
    rw [ents hx hen]
    simp only
    obtain ⟨-, -, -, hsrc⟩ := hJ.mem hS hx
    by_cases h1 : ent P x = P.scope b1
    · obtain ⟨_, hcx⟩ := src hx
      have hxe1 : x = e1 := hS.uniq _ _ x hcx e1 hap.me1 hen' ie1 (by rw [h1, hap.ente1])
      subst hxe1
      rw [if_pos h1]
      have hc' : c' = c := by
        rcases hsrc with h | h
        · exact hS.place _ _ _ h hap.me1
        · exact absurd (hS.place _ _ _ hap.me1 h.2) hap.cs
      rw [hc', if_neg hap.cs1]
      omega
    · rw [if_neg h1]
      rcases hsrc with h | ⟨h, h'⟩
      · have := hR c' x h hen'
        split
        · rename_i hc'; rw [hc'] at this; omega
        · exact this
      · have := hR _ x h' hen'
        rw [if_pos h]
        omega
  · intro c' h0 hne
    rw [hJ.path']
    apply hS.paths c' h0
    intro hq
    cases hq' : queue' c' with
    | nil => exact hne hq'
    | cons x q' =>
      rcases (hJ.mem hS (show x ∈ queue' c' by rw [hq']; simp)).2.2.2 with h | h
      · rw [hq] at h; cases h
      · rw [h.1, hJ.hq1] at hq; cases hq

end

end Verif.Scopes.Join
