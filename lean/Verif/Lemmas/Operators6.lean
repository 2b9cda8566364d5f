import Verif.Lemmas.Operators5
/-!
# Lemmas about operators: how features are written
-/
namespace FT
open Spec

section
variable {text : OCell → String} {listText : List OCell → String}

theorem build_noGroupby : ∀ (e : PExpr) (f : OFeat), NoGroupby e → build e = .ok f → f.cls ≠ .groupby := by
  intro e
  cases e with
  | leaf l => intro f hn h; cases h; exact hn
  | op o a b =>
    intro f _ h
    obtain ⟨x, _, h⟩ := bind_ok h
    obtain ⟨y, _, h⟩ := bind_ok h
    rcases between_cases o x y with e | ⟨o', _, e⟩ <;>
    · rw [e, forward_feature, mk2_ok] at h
      obtain ⟨_, _, rfl⟩ := h
      simp [OFeat.cls]
  | opScalar o a v =>
    intro f _ h
    obtain ⟨x, _, h⟩ := bind_ok h
    obtain ⟨p, _, _, rfl⟩ := forward_scalar_ok.mp h
    simp [OFeat.cls]
  | scalarOp o v a =>
    intro f _ h
    obtain ⟨x, _, h⟩ := bind_ok h
    obtain ⟨p, _, _, rfl⟩ := reflected_scalar_ok.mp h
    simp [OFeat.cls]
  | _ =>
    intro f _ h
    obtain ⟨x, _, h⟩ := bind_ok h
    obtain ⟨_, rfl⟩ := mk1_ok.mp h
    simp [OFeat.cls]

theorem between_left {o : POp} {f g : OFeat} (h : g.cls ≠ .groupby) : between o f g = forward o f (.feature g) := by
  unfold between
  rw [if_neg (fun e => h e.2)]

theorem written_bin (o : POp) (t u : VFam) (x y : String) : (primFor o t u).genName x y = written x o y := by
  by_cases hm : o = .mul
  · subst hm
    by_cases hb : t = .boolean ∧ u = .boolean
    · apply String.toList_inj.mp
      simp [primFor, hb, Prim2.genName, written, symbol]
    · apply String.toList_inj.mp
      simp [primFor, if_neg hb, Prim2.genName, written, symbol]
  · apply String.toList_inj.mp
    cases o
    case mul => exact absurd rfl hm
    all_goals simp [primFor, Prim2.genName, written, symbol]

theorem written_scalar {o : POp} {v : OCell} {p : Prim1} (h : scalarPrim o v = some p) (x : String) :
    p.genName text listText x = written x o (text v) := by
  apply String.toList_inj.mp
  cases o <;> cases h <;> simp [Prim1.genName, written, symbol]

theorem written_reflected {o : POp} {v : OCell} {p : Prim1} (h : reflectedPrim o v = some p) (hn : ∀ o', ¬ Turned o o') (x : String) :
    p.genName text listText x = written (text v) o x := by
  apply String.toList_inj.mp
  cases o <;> cases h
  case sub => simp [Prim1.genName, written, symbol]
  case div => simp [Prim1.genName, written, symbol]
  case mod => simp [Prim1.genName, written, symbol]
  case lt => exact absurd .lt (hn _)
  case le => exact absurd .le (hn _)
  case gt => exact absurd .gt (hn _)
  case ge => exact absurd .ge (hn _)
  case eq => exact absurd .eq (hn _)
  case ne => exact absurd .ne (hn _)
  case add => exact absurd .add (hn _)
  case mul => exact absurd .mul (hn _)

theorem turned_prim {o o' : POp} (h : Turned o o') (v : OCell) : reflectedPrim o v = scalarPrim o' v := by
  cases h <;> rfl

theorem build_written : ∀ (e : PExpr) (f : OFeat) (s : String), NoGroupby e → build e = .ok f → Written text listText e s →
    f.name text listText = s := by
  intro e f s hn hb hw
  induction hw generalizing f with
  | leaf l => cases hb; rfl
  | @op a b x y o _ _ iha ihb =>
    obtain ⟨f', hf, hb⟩ := bind_ok hb
    obtain ⟨g', hg, hb⟩ := bind_ok hb
    rw [between_left (build_noGroupby b g' hn.2 hg), forward_feature, mk2_ok] at hb
    obtain ⟨_, _, rfl⟩ := hb
    simp only [OFeat.name]
    rw [iha f' hn.1 hf, ihb g' hn.2 hg, written_bin]
  | @opScalar a x o v _ iha =>
    obtain ⟨f', hf, hb⟩ := bind_ok hb
    obtain ⟨p, hp, _, rfl⟩ := forward_scalar_ok.mp hb
    simp only [OFeat.name]
    rw [iha f' hn hf, written_scalar hp]
  | @turned a x o o' v ht _ iha =>
    obtain ⟨f', hf, hb⟩ := bind_ok hb
    obtain ⟨p, hp, _, rfl⟩ := reflected_scalar_ok.mp hb
    simp only [OFeat.name]
    rw [iha f' hn hf, written_scalar (turned_prim ht v ▸ hp)]
  | @scalarOp a x o v ht _ iha =>
    obtain ⟨f', hf, hb⟩ := bind_ok hb
    obtain ⟨p, hp, _, rfl⟩ := reflected_scalar_ok.mp hb
    simp only [OFeat.name]
    rw [iha f' hn hf, written_reflected hp ht]
  | isIn l _ iha =>
    obtain ⟨f', hf, hb⟩ := bind_ok hb
    have hb : OFeat.mk1 (.isIn l) f' = .ok f := hb
    obtain ⟨_, rfl⟩ := mk1_ok.mp hb
    simp only [OFeat.name]
    rw [iha f' hn hf]; rfl
  | _ _ iha =>
    obtain ⟨f', hf, hb⟩ := bind_ok hb
    obtain ⟨_, rfl⟩ := mk1_ok.mp hb
    simp only [OFeat.name]
    rw [iha f' hn hf]; rfl

theorem written_exists : ∀ e : PExpr, ∃ s, Written text listText e s := by
  intro e
  induction e with
  | leaf l => exact ⟨_, .leaf l⟩
  | op o a b iha ihb => obtain ⟨x, hx⟩ := iha; obtain ⟨y, hy⟩ := ihb; exact ⟨_, .op o hx hy⟩
  | opScalar o a v iha => obtain ⟨x, hx⟩ := iha; exact ⟨_, .opScalar o v hx⟩
  | scalarOp o v a iha =>
    obtain ⟨x, hx⟩ := iha
    by_cases h : ∃ o', Turned o o'
    · obtain ⟨o', h⟩ := h; exact ⟨_, .turned v h hx⟩
    · exact ⟨_, .scalarOp v (fun o' h' => h ⟨o', h'⟩) hx⟩
  | neg a iha => obtain ⟨x, hx⟩ := iha; exact ⟨_, .neg hx⟩
  | abs a iha => obtain ⟨x, hx⟩ := iha; exact ⟨_, .abs hx⟩
  | invert a iha => obtain ⟨x, hx⟩ := iha; exact ⟨_, .invert hx⟩
  | isNull a iha => obtain ⟨x, hx⟩ := iha; exact ⟨_, .isNull hx⟩
  | isIn a l iha => obtain ⟨x, hx⟩ := iha; exact ⟨_, .isIn l hx⟩

end

end FT
