import Verif.Cg.LemmasSim
import Verif.Codegen.Props
import Mathlib.Tactic.Choose
namespace Verif.Cg
open Verif.Codegen
variable {α : Type}

/-! ### handlers are not mixed -/

theorem unmixed_add {w : World α} (hw : w.Unmixed) {h : Nat} {op : Op} {args : List (Arg α)}
    (ha : ∀ m ∈ argNodes args, ∃ nd', w.nodes[m]? = some (nd', h)) : (w.add h op args).1.Unmixed := by
  intro n nd h' hn m hm
  simp only [World.add] at hn ⊢
  rw [List.getElem?_append] at hn
  split at hn
  · obtain ⟨nd', e⟩ := hw n nd h' hn m hm
    exact ⟨nd', getElem?_append_some _ e⟩
  · rw [List.getElem?_singleton] at hn
    split at hn
    · cases hn
      obtain ⟨nd', e⟩ := ha m hm
      exact ⟨nd', getElem?_append_some _ e⟩
    · cases hn

/-- arguments of a register: the node, owned by the handler of the register -/
theorem arg_owner {w : World α} {c : Cg α} {u : Arg α} {h : Nat} (hu : c.argument = .ok u)
    (hh : ∀ h', c.handler w = some h' → h' = h) (hc : OkReg w c) :
    ∀ m ∈ argNodes [u], ∃ nd', w.nodes[m]? = some (nd', h) := by
  unfold Cg.argument at hu
  unfold Cg.handler at hh
  unfold OkReg at hc
  cases hn : c.node with
  | none =>
    rw [hn] at hu hc
    obtain ⟨v, hv⟩ := Option.isSome_iff_exists.1 hc
    rw [hv] at hu
    cases hu
    intro m hm
    simp [argNodes] at hm
  | some n =>
    rw [hn] at hu hh hc
    simp only at hu hh hc
    cases hu
    intro m hm
    simp [argNodes] at hm
    subst hm
    have hq : w.nodes[m]? = some ((w.nodes[m]).1, (w.nodes[m]).2) := List.getElem?_eq_getElem hc
    rw [hq] at hh
    have : (w.nodes[m]).2 = h := hh _ rfl
    exact ⟨_, by rw [hq, this]⟩

theorem binNode_unmixed {I : Interp α} {o : Bin} {w w' : World α} (hw : w.Unmixed) {h : Nat} {a b r : Cg α}
    (ha : OkReg w a) (hb : OkReg w b) (h1 : ∀ h', a.handler w = some h' → h' = h)
    (h2 : ∀ h', b.handler w = some h' → h' = h) (e : binNode I o w h a b = .ok (r, w')) : w'.Unmixed := by
  unfold binNode at e
  obtain ⟨u, hu, e⟩ := bind_ok e
  obtain ⟨v, hv, e⟩ := bind_ok e
  cases e
  refine unmixed_add hw ?_
  intro m hm
  rw [argNodes_cons, List.mem_append] at hm
  rcases hm with hm | hm
  · exact arg_owner hu h1 ha m hm
  · exact arg_owner hv h2 hb m hm

theorem getHandler_ok {l r : Option Nat} {h : Nat} (e : getHandler l r = .ok h) :
    (∀ h', l = some h' → h' = h) ∧ (∀ h', r = some h' → h' = h) := by
  unfold getHandler at e
  repeat' split at e
  all_goals first
    | (cases e; done)
    | (cases e; constructor <;> intro h' hh <;> cases hh <;> rfl)
    | skip
  rename_i hne
  cases e
  simp only [ne_eq, Decidable.not_not] at hne
  subst hne
  constructor <;> intro h' hh <;> cases hh <;> rfl

theorem binary_unmixed {I : Interp α} {o : Bin} (hop : o ≠ .pow) {w w' : World α} (hw : w.Unmixed)
    {a b r : Cg α} (ha : OkReg w a) (hb : OkReg w b) (e : binary I o w a b = .ok (r, w')) :
    w'.Unmixed := by
  unfold binary at e
  split at e
  · unfold fold at e
    obtain ⟨u, _, e⟩ := bind_ok e
    obtain ⟨v, _, e⟩ := bind_ok e
    cases e
    exact hw
  · cases o <;> simp only at e
    case pow => exact absurd rfl hop
    all_goals
      repeat' split at e
    all_goals first
      | (cases e; exact hw)
      | (obtain ⟨h, hh, e⟩ := bind_ok e
         exact binNode_unmixed hw ha hb (getHandler_ok hh).1 (getHandler_ok hh).2 e)

theorem unary_unmixed {op : Op} {g : α → α} {w w' : World α} (hw : w.Unmixed) {a r : Cg α}
    (ha : OkReg w a) (e : unary op g w a = .ok (r, w')) : w'.Unmixed := by
  unfold unary at e
  split at e
  · obtain ⟨u, _, e⟩ := bind_ok e
    cases e
    exact hw
  · split at e
    · cases e
    · rename_i h hh
      obtain ⟨u, hu, e⟩ := bind_ok e
      cases e
      exact unmixed_add hw (arg_owner hu (fun h' e => by rw [hh] at e; cases e; rfl) ha)

theorem findHandler_ok {w : World α} {l r t f : Cg α} {h : Nat} (e : findHandler w l r t f = .ok h) :
    (∀ h', l.handler w = some h' → h' = h) ∧ (∀ h', r.handler w = some h' → h' = h) ∧
    (∀ h', t.handler w = some h' → h' = h) ∧ (∀ h', f.handler w = some h' → h' = h) := by
  have hpar : ∀ c : Cg α, c.isPar = true → c.handler w = none := by
    intro c hc
    unfold Cg.isPar at hc
    unfold Cg.handler
    rw [Option.isNone_iff_eq_none] at hc
    rw [hc]
  unfold findHandler at e
  simp only at e
  split at e
  · cases e
  · rename_i hh
    split at e
    · cases e
    · rename_i hne
      cases e
      simp only [Bool.or_eq_true, Bool.and_eq_true, not_or, not_and, bne_iff_ne, ne_eq, Decidable.not_not,
        Bool.not_eq_true'] at hne
      have key : ∀ c : Cg α, (c.isPar = false → c.handler w = some h) →
          ∀ h', c.handler w = some h' → h' = h := by
        intro c hc h' e
        cases hp : c.isPar with
        | true => rw [hpar c hp] at e; cases e
        | false => rw [hc hp] at e; cases e; rfl
      refine ⟨key l ?_, key r hne.1.1, key t hne.1.2, key f hne.2⟩
      intro hl
      rw [hl] at hh
      simpa using hh

theorem condExp_unmixed {I : Interp α} {c : Cmp} {w w' : World α} (hw : w.Unmixed) {l r t f q : Cg α}
    (hl : OkReg w l) (hr : OkReg w r) (ht : OkReg w t) (hf : OkReg w f)
    (e : condExp I c w l r t f = .ok (q, w')) : w'.Unmixed := by
  unfold condExp at e
  split at e
  · obtain ⟨u, _, e⟩ := bind_ok e
    obtain ⟨v, _, e⟩ := bind_ok e
    split at e <;> (cases e; exact hw)
  · split at e
    · cases e; exact hw
    · obtain ⟨h, hh, e⟩ := bind_ok e
      obtain ⟨_, e1, e⟩ := bind_ok e
      obtain ⟨_, e2, e⟩ := bind_ok e
      obtain ⟨_, e3, e⟩ := bind_ok e
      obtain ⟨_, e4, e⟩ := bind_ok e
      cases e
      obtain ⟨k1, k2, k3, k4⟩ := findHandler_ok hh
      refine unmixed_add hw ?_
      intro m hm
      rw [argNodes_cons, List.mem_append] at hm
      rcases hm with hm | hm
      · exact arg_owner e1 k1 hl m hm
      rw [argNodes_cons, List.mem_append] at hm
      rcases hm with hm | hm
      · exact arg_owner e2 k2 hr m hm
      rw [argNodes_cons, List.mem_append] at hm
      rcases hm with hm | hm
      · exact arg_owner e3 k3 ht m hm
      · exact arg_owner e4 k4 hf m hm

theorem step_unmixed {I : Interp α} {s s' : RState α} (hs : StOk s) (hw : s.world.Unmixed) {i : Instr α}
    (h1 : ∀ o j k, i ≠ .upd o j k) (h2 : ∀ j k, i ≠ .bin .pow j k) (e : step I s i = .ok s') :
    s'.world.Unmixed := by
  have hreg : ∀ {i : Nat} {c : Cg α}, reg s i = .ok c → OkReg s.world c := by
    intro i c h
    exact hs.regs c (List.mem_of_getElem? (reg_ok h))
  cases i with
  | const v => cases e; exact hw
  | indep h v =>
    cases e
    exact unmixed_add (w := s.world) hw (h := h) (op := .inv) (args := []) (by simp [argNodes])
  | bin o i j =>
    obtain ⟨a, ea, e⟩ := bind_ok e
    obtain ⟨b, eb, e⟩ := bind_ok e
    obtain ⟨⟨r, w'⟩, er, e⟩ := bind_ok e
    cases e
    exact binary_unmixed (fun hc => h2 i j (by rw [hc])) hw (hreg ea) (hreg eb) er
  | upd o i j => exact absurd rfl (h1 o i j)
  | copy i j =>
    obtain ⟨a, ea, e⟩ := bind_ok e
    obtain ⟨b, eb, e⟩ := bind_ok e
    cases e; exact hw
  | un f i =>
    obtain ⟨a, ea, e⟩ := bind_ok e
    obtain ⟨⟨r, w'⟩, er, e⟩ := bind_ok e
    cases e; exact unary_unmixed hw (hreg ea) er
  | neg i =>
    obtain ⟨a, ea, e⟩ := bind_ok e
    obtain ⟨⟨r, w'⟩, er, e⟩ := bind_ok e
    cases e; exact unary_unmixed hw (hreg ea) er
  | sign i =>
    obtain ⟨a, ea, e⟩ := bind_ok e
    obtain ⟨⟨r, w'⟩, er, e⟩ := bind_ok e
    cases e; exact unary_unmixed hw (hreg ea) er
  | cond c l r t f =>
    obtain ⟨a, ea, e⟩ := bind_ok e
    obtain ⟨b, eb, e⟩ := bind_ok e
    obtain ⟨u, eu, e⟩ := bind_ok e
    obtain ⟨v, ev, e⟩ := bind_ok e
    obtain ⟨⟨q, w'⟩, er, e⟩ := bind_ok e
    cases e
    exact condExp_unmixed hw (hreg ea) (hreg eb) (hreg eu) (hreg ev) er

theorem record_unmixed {I : Interp α} {is : List (Instr α)} :
    ∀ {s s' : RState α}, StOk s → s.world.Unmixed → (∀ i ∈ is, ∀ o j k, i ≠ .upd o j k) →
      (∀ i ∈ is, ∀ j k, i ≠ .bin .pow j k) → record I s is = .ok s' → s'.world.Unmixed := by
  induction is with
  | nil => intro s s' _ hw _ _ e; cases e; exact hw
  | cons i is ih =>
    intro s s' hs hw h1 h2 e
    unfold record at e
    cases hq : step I s i with
    | error x => rw [hq] at e; cases e
    | ok s1 =>
      rw [hq] at e
      exact ih (step_ok hs hq).1 (step_unmixed hs hw (h1 i (by simp)) (h2 i (by simp)) hq)
        (fun j hj => h1 j (List.mem_cons_of_mem _ hj)) (fun j hj => h2 j (List.mem_cons_of_mem _ hj)) e

/-! ### the recorded graph is a well formed request -/

theorem graph_of {w : World α} {n : Nat} {nd : Node α} {h : Nat} (e : w.nodes[n]? = some (nd, h)) :
    w.graph n = nd := by unfold World.graph; rw [e]

theorem reach_lt {w : World α} (hw : WorldOk w) {roots : List Nat} (hr : ∀ n ∈ roots, n < w.nodes.length) {n : Nat}
    (h : Reach w.graph roots n) : n < w.nodes.length := by
  induction h with
  | root h => exact hr _ h
  | kid hn hk ih =>
    rename_i n m
    have hq : w.nodes[n]? = some ((w.nodes[n]).1, (w.nodes[n]).2) := List.getElem?_eq_getElem ih
    have := hw.args n _ _ hq m (by unfold kids at hk; rw [graph_of hq] at hk; exact hk)
    omega

theorem world_wf {w : World α} (hw : WorldOk w) {deps : List (Arg α)}
    (hd : ∀ n ∈ argNodes deps, n < w.nodes.length) :
    WF w.graph id w.nodes.length w.indeps deps := by
  have hget' : ∀ n, ∃ q : Node α × Nat, n < w.nodes.length → w.nodes[n]? = some (q.1, q.2) := by
    intro n
    by_cases hn : n < w.nodes.length
    · exact ⟨w.nodes[n], fun _ => List.getElem?_eq_getElem hn⟩
    · exact ⟨(⟨.inv, []⟩, 0), fun h => absurd h hn⟩
  choose q hget using hget'
  have ha : ∀ n, n < w.nodes.length → ∀ m ∈ kids w.graph n, m < n := by
    intro n hn m hm
    unfold kids at hm
    rw [graph_of (hget n hn)] at hm
    exact hw.args n _ _ (hget n hn) m hm
  have har : ∀ n, n < w.nodes.length → Arity (w.graph n).op (w.graph n).args := by
    intro n hn
    rw [graph_of (hget n hn)]
    exact hw.arity n _ _ (hget n hn)
  have hna : ∀ n, n < w.nodes.length → (w.graph n).op ≠ .alias := by
    intro n hn e
    have := har n hn
    rw [e] at this
    exact this
  refine ⟨?_, ?_, ?_, ?_, hw.nodup, ?_, ?_⟩
  · intro n hn m hm
    exact ha n (reach_lt hw hd hn) m hm
  · intro d h; exact hd d h
  · intro n hn
    have hl := reach_lt hw hd hn
    have h := har n hl
    unfold Shape
    cases hop : (w.graph n).op <;> rw [hop] at h <;> simp only [Arity] at h ⊢
    all_goals first | exact h | skip
    obtain ⟨m, hm⟩ := h
    refine ⟨m, hm, hna m ?_⟩
    have := ha n hl m (by unfold kids; rw [hm]; simp [argNodes])
    omega
  · intro n hn hop
    have hl := reach_lt hw hd hn
    rw [graph_of (hget n hl)] at hop
    exact (hw.indep n).2 ⟨_, _, hget n hl, hop⟩
  · intro n hn
    obtain ⟨nd, h, e, hop⟩ := (hw.indep n).1 hn
    rw [graph_of e]; exact hop
  · intro n hn m hm hop
    have hl := reach_lt hw hd hn
    have := ha n hl m hm
    exact absurd hop (hna m (by omega))

theorem world_valuation {I : Interp α} {w : World α} (hw : WorldOk w) {x val : Nat → α}
    (hv : w.Val I x val) {deps : List (Arg α)} (hd : ∀ n ∈ argNodes deps, n < w.nodes.length) :
    IsValuation I w.graph w.indeps (argNodes deps) x val := by
  refine ⟨hv.1, ?_⟩
  intro n hn hop
  have hl := reach_lt hw hd hn
  have hq : w.nodes[n]? = some ((w.nodes[n]).1, (w.nodes[n]).2) := List.getElem?_eq_getElem hl
  rw [graph_of hq] at hop ⊢
  exact hv.2 n _ _ hq hop

end Verif.Cg
