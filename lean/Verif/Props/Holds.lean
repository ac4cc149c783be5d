import Verif.Proofs.Holds
import Verif.Proofs.SpreadDec
import Verif.Props.Spread
/-! C80: the data hold exactly what the rows say. -/
namespace Verif
open Spec

theorem listToValue_keyed (ks : List (Val × Fields)) : listToValue (keyedToLists ks) = ks.map (fun e => .obj (jf e.2)) := by
  have := jv_tmp ks []
  simp only [jv, treeToLists, treeToValue, jtd, List.map_nil, List.append_nil, Json.arr.injEq, itemsToLists] at this
  exact this

theorem listToValue_append (a b : List (List (Str × CTree))) : listToValue (a ++ b) = listToValue a ++ listToValue b := by
  induction a with
  | nil => rfl
  | cons x r ih => simp [listToValue, ih]

/-- The ids of a group. -/
def groupKeys (g : Val × TDict) : List (Atom × Val) := g.2.keyed.map (fun e => ((match g.1 with | .atom a => a | _ => .none), e.1))

/-- C80: let the rows of a spreadsheet name everything they speak about, without contradicting each other.  Then the data have exactly one object for each root id and
id that some row speaks about; it holds everything that the rows say about it, at the positions and with the values that they say, and nothing else. -/
theorem C80_exactly (cfg : UnCfg) (hx : cfg.row.xml = false) (m : Str) (hm : cfg.idName = some m) (sheets : List SheetIn)
    (h : ∀ r ∈ rowsIn sheets, NamesAll cfg m r.line) (hag : ∀ x y, Said cfg m sheets x → Said cfg m sheets y → x.Agree y) :
    ∃ out w keys, unflatten cfg sheets = .ok (out, w) ∧
      All₂ (fun (key : Atom × Val) j => ∃ fs, j = .obj fs ∧ IsSaid cfg m sheets key.1 key.2 fs) keys out ∧
      keys.Pairwise (fun a b => ¬ (atomEq a.1 b.1 = true ∧ a.2.pyEq b.2 = true)) ∧
      ∀ x, Said cfg m sheets x → ∃ key ∈ keys, atomEq x.root key.1 = true ∧ x.id.pyEq key.2 = true := by
  obtain ⟨gs, w, e1, hr⟩ := run_saysAll hx hm sheets h hag
  have hl := hr.clean.node
  -- each group
  have hgroup : ∀ g ∈ gs, keyGet (gs.map (fun e => (e.1, encTD e.2))) g.1 = some (encTD g.2) := by
    intro g hg
    have hm : (g.1, encTD g.2) ∈ gs.map (fun e => (e.1, encTD e.2)) := List.mem_map_of_mem hg
    exact keyGet_of_mem hl.2.1 hm (hl.2.2 _ hm)
  have htd : ∀ g ∈ gs, (enc gs).sub [.item g.1, .field []] = some (.tmp g.2.keyed g.2.rest) := by
    intro g hg
    simp only [enc, Tree.sub]
    rw [hgroup g hg]
    simp [encTD, Tree.sub, Dict.get_cons]
  have hrest : ∀ g ∈ gs, g.2.rest = [] ∧ KeysDistinct g.2.keyed ∧ ∀ e ∈ g.2.keyed, e.1.pyEq e.1 = true :=
    fun g hg => hr.clean _ _ (htd g hg)
  have hobj : ∀ g ∈ gs, ∀ e ∈ g.2.keyed, ∃ root, g.1 = .atom root ∧ IsSaid cfg m sheets root e.1 (jf e.2) := by
    intro g hg e he
    have hs : (enc gs).sub [.item g.1, .field [], .item e.1] = some (.obj e.2) := by
      rw [show [PKey.item g.1, .field [], .item e.1] = [.item g.1, .field []] ++ [.item e.1] from rfl, sub_append, htd g hg]
      have := keyGet_of_mem (hrest g hg).2.1 (show (e.1, e.2) ∈ g.2.keyed from he) ((hrest g hg).2.2 e he)
      simp [Tree.sub, this]
    obtain ⟨root, h1, h2⟩ := obj_says h hr hs
    exact ⟨root, h1, obj_isSaid h2⟩
  refine ⟨listToValue (groupsToList gs), w, gs.flatMap groupKeys, by simp [unflatten, e1], ?_, ?_, ?_⟩
  · clear e1 hgroup htd
    clear hl hr
    unfold groupsToList
    induction gs with
    | nil => exact .nil
    | cons g r ih =>
      have ih := ih (fun g hg => hrest g (by simp [hg])) (fun g hg => hobj g (by simp [hg]))
      simp only [List.flatMap_cons, listToValue_append]
      have h1 : listToValue (itemsToLists g.2.rest) = [] := by rw [(hrest g (by simp)).1]; rfl
      rw [h1, List.append_nil, listToValue_keyed]
      refine All₂.append ?_ ih
      have ho := hobj g (by simp)
      unfold groupKeys
      generalize g.2.keyed = ks at ho
      induction ks with
      | nil => exact .nil
      | cons e es ih2 =>
        refine .cons ⟨_, rfl, ?_⟩ (ih2 (fun e he => ho e (by simp [he])))
        obtain ⟨root, h1, h2⟩ := ho e (by simp)
        simp only [h1]; exact h2
  · have hpw : gs.Pairwise (fun a b => ¬ a.1.pyEq b.1 = true) := by
      have := hl.2.1
      unfold KeysDistinct at this
      rw [List.pairwise_map] at this
      exact this
    clear e1 hgroup htd hl hr
    induction gs with
    | nil => exact .nil
    | cons g r ih =>
      rw [List.pairwise_cons] at hpw
      simp only [List.flatMap_cons]
      rw [List.pairwise_append]
      refine ⟨?_, ih (fun g hg => hrest g (by simp [hg])) (fun g hg => hobj g (by simp [hg])) hpw.2, ?_⟩
      · unfold groupKeys
        rw [List.pairwise_map]
        exact List.Pairwise.imp (fun h hh => h hh.2) (hrest g (by simp)).2.1
      · intro a ha b hb ⟨h1, _⟩
        unfold groupKeys at ha
        obtain ⟨e, he, rfl⟩ := List.mem_map.1 ha
        obtain ⟨g', hg', hb⟩ := List.mem_flatMap.1 hb
        unfold groupKeys at hb
        obtain ⟨e', he', rfl⟩ := List.mem_map.1 hb
        obtain ⟨r1, q1, -⟩ := hobj g (by simp) e he
        obtain ⟨r2, q2, -⟩ := hobj g' (by simp [hg']) e' he'
        apply hpw.1 g' hg'
        simp only [q1, q2] at h1 ⊢
        exact h1
  · intro x hxs
    obtain ⟨c, c1, -⟩ := hr.complete x hxs
    unfold full at c1
    simp only [enc, Tree.sub] at c1
    cases hk : keyGet (gs.map (fun e => (e.1, encTD e.2))) (.atom x.root) with
    | none => rw [hk] at c1; cases c1
    | some f =>
      rw [hk] at c1
      obtain ⟨k', h1, h2⟩ := keyGet_some_mem hk
      obtain ⟨g, hg, hge⟩ := List.mem_map.1 h1
      simp only [Prod.mk.injEq] at hge
      obtain ⟨rfl, rfl⟩ := hge
      simp only [Option.bind_some, Tree.sub, encTD, Dict.get_cons, if_true] at c1
      cases hk2 : keyGet g.2.keyed x.id with
      | none => rw [hk2] at c1; cases c1
      | some f2 =>
        obtain ⟨k2, h3, h4⟩ := keyGet_some_mem hk2
        obtain ⟨root, q1, -⟩ := hobj g hg _ h3
        refine ⟨(root, k2), List.mem_flatMap.2 ⟨g, hg, ?_⟩, ?_, Val.pyEq_symm h4⟩
        · unfold groupKeys
          exact List.mem_map.2 ⟨_, h3, by simp [q1]⟩
        · rw [q1] at h2; exact Val.pyEq_symm h2

set_option synthInstance.maxSize 2000 in
/-- The rows of `SpreadEx.tall` (four rows in two sheets, one object) meet the hypotheses. -/
example : ∃ out w keys, unflatten SpreadEx.cfg SpreadEx.tall = .ok (out, w) ∧
      All₂ (fun (key : Atom × Val) j => ∃ fs, j = .obj fs ∧ IsSaid SpreadEx.cfg s%"id" SpreadEx.tall key.1 key.2 fs) keys out ∧
      keys.Pairwise (fun a b => ¬ (atomEq a.1 b.1 = true ∧ a.2.pyEq b.2 = true)) ∧
      ∀ x, Said SpreadEx.cfg s%"id" SpreadEx.tall x → ∃ key ∈ keys, atomEq x.root key.1 = true ∧ x.id.pyEq key.2 = true :=
  C80_exactly SpreadEx.cfg rfl s%"id" rfl SpreadEx.tall (namesAll_all (by decide +kernel)) (agree_all (by decide +kernel))

end Verif
