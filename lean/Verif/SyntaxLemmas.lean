import Verif.Syntax
import Verif.PropsExprQuot
import Verif.PropsExprOrder

/-! # Lemmas on unsupported syntax -/

namespace Verif

mutual
/-- The value of an expression depends on the fields it names only. -/
theorem E.eval_names {env env' : RowEnv} (hf : env.fn = env'.fn) :
    ∀ (e : E), (∀ s ∈ e.names, env.field s = env'.field s) → e.eval env = e.eval env'
  | .node h p n, hs => by
    have key : (∀ s ∈ E.namesL p, env.field s = env'.field s) →
        (∀ s ∈ E.namesL n, env.field s = env'.field s) →
        (∀ P N S, h.apply env P N S = h.apply env' P N S) →
        E.eval env (.node h p n) = E.eval env' (.node h p n) := by
      intro h1 h2 h3
      simp only [E.eval]
      rw [E.evalL_names hf p h1, E.evalL_names hf n h2, h3]
    cases h with
    | name s => simp only [E.eval, Head.apply]; exact hs s (by simp [E.names])
    | pred s b => simp only [E.eval, Head.apply]; rw [hs s (by simp [E.names])]
    | const q => simp [E.eval, Head.apply]
    | cset l => simp [E.eval, Head.apply]
    | binop f =>
      simp only [E.names, List.mem_append] at hs
      exact key (fun s h => hs s (.inl h)) (fun s h => hs s (.inr h)) (fun P N S => by simp only [Head.apply, hf])
    | call f =>
      simp only [E.names, List.mem_append] at hs
      exact key (fun s h => hs s (.inl h)) (fun s h => hs s (.inr h)) (fun P N S => by simp only [Head.apply, hf])
    | _ =>
      simp only [E.names, List.mem_append] at hs
      exact key (fun s h => hs s (.inl h)) (fun s h => hs s (.inr h)) (fun P N S => by simp only [Head.apply])
theorem E.evalL_names {env env' : RowEnv} (hf : env.fn = env'.fn) :
    ∀ (l : List E), (∀ s ∈ E.namesL l, env.field s = env'.field s) → E.evalL env l = E.evalL env' l
  | [], _ => rfl
  | e :: es, hs => by
    simp only [E.namesL, List.mem_append] at hs
    simp only [E.evalL]
    rw [E.eval_names hf e (fun s h => hs s (.inl h)), E.evalL_names hf es (fun s h => hs s (.inr h))]
end

end Verif
