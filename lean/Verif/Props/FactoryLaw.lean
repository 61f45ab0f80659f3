import Verif.Props.Factory

/-! The tables of learned networks whose parents are listed in any order (C45). -/

namespace PyBBN
open Relation InferenceController

/-- a position of the table of a column, by the number of the row -/
theorem Factory.table_row {st : Dict Str (List Str)} {df : Frame} {c : Str} {k : Nat} {combo : List Str} {x : Str}
    (hk : (product ((Factory.sp st df c).map (Factory.vals df)))[k]? = some combo) (hx : x ∈ Factory.vals df c) :
    (Factory.table st df c).getD (k * (Factory.vals df c).length + (Factory.vals df c).idxOf x) 0 =
      df.relFreq c x ((Factory.sp st df c).zip combo) := by
  unfold Factory.table
  rw [List.getD_eq_getElem?_getD]
  have hlt := List.idxOf_lt_length_of_mem hx
  rw [flatMap_getElem? _ (Factory.vals df c).length _ hlt _ (by intro combo _; unfold Factory.rowFor; rw [List.length_map]), hk]
  simp only [Option.bind_some]
  unfold Factory.rowFor
  rw [List.getElem?_map, List.getElem?_eq_getElem hlt, List.getElem_idxOf hlt]
  rfl

/-- **C45**, what the code does for parents listed in any order: the entry that inference reads for the values `σ` is the relative
frequency for the parent values `τ` that stand at the same row number when the parents are taken in ascending order. -/
theorem c45_law (st : Dict Str (List Str)) (df : Frame) (h : Factory.Valid st df) (hac : Acyclic df.Names) :
    ∃ b, Factory.fromData st df = .ok b ∧ ∀ n ∈ b.toGraph.getNodes, ∃ asc : List Variable,
      asc.Perm (b.parentVars n.var.id) ∧ asc.Pairwise (fun u v => strLe u.name v.name = true) ∧
      ∀ σ, InDom b.vars σ → ∃ τ : Asg, (∀ p ∈ asc, τ p.id ∈ p.values) ∧ rowIdx asc τ = rowIdx (b.parentVars n.var.id) σ ∧
        (∀ τ' : Asg, (∀ p ∈ asc, τ' p.id ∈ p.values) → rowIdx asc τ' = rowIdx (b.parentVars n.var.id) σ → ∀ p ∈ asc, τ' p.id = τ p.id) ∧
        cptAt n.probs (b.parentVars n.var.id) n.var σ =
          df.relFreq n.var.name (σ n.var.id) ((b.parentVars n.var.id).map (fun p => (p.name, τ p.id))) := by
  obtain ⟨id, hid, hb⟩ := (Factory.fromData_spec h).1 hac
  have hwf := Factory.named_wf h hid
  have hvars := Named.vars hwf (List.Perm.refl df.columns) (Factory.kids_perm h)
  refine ⟨_, hb, ?_⟩
  intro n hn
  obtain ⟨c, hc, rfl⟩ := (Named.mem_nodes hwf (List.Perm.refl _) (Factory.kids_perm h) n).1 hn
  have hpv := Named.parentVars hwf (List.Perm.refl df.columns) (Factory.kids_perm h) hc
  have hper := Factory.sp_perm_firsts h hc
  refine ⟨(Factory.sp st df c).map (fun p => ((Factory.named st df id).node p).var), ?_, ?_, ?_⟩
  · rw [hpv]; exact hper.map _
  · rw [List.pairwise_map]
    exact sortBy_sorted _ strLe_total strLe_trans _
  · intro σ hσ
    have hdom : ∀ m ∈ df.columns, σ (id m) ∈ Factory.vals df m := by
      intro m hm
      exact hσ ((Factory.named st df id).node m).var (by rw [hvars]; exact List.mem_map.2 ⟨m, hm, rfl⟩)
    have hcols : ∀ p ∈ Factory.sp st df c, p ∈ df.columns := fun p hp => ((Factory.mem_sp c p).1 hp).1
    have hids : vids ((Factory.sp st df c).map (fun p => ((Factory.named st df id).node p).var)) = (Factory.sp st df c).map id := by
      unfold vids; rw [List.map_map]; rfl
    have hnd : (vids ((Factory.sp st df c).map (fun p => ((Factory.named st df id).node p).var))).Nodup := by
      rw [hids]
      exact List.Nodup.map_on (fun a ha b hb e => hid a (hcols a ha) b (hcols b hb) e) (Factory.sp_nodup h.cols c)
    have hD : ∀ v ∈ (Factory.sp st df c).map (fun p => ((Factory.named st df id).node p).var), v.values.Nodup := by
      intro v hv
      obtain ⟨p, _, rfl⟩ := List.mem_map.1 hv
      exact Factory.vals_nodup df p
    have hvals : ((Factory.sp st df c).map (fun p => ((Factory.named st df id).node p).var)).map Variable.values =
        (Factory.sp st df c).map (Factory.vals df) := by
      rw [List.map_map]; rfl
    rw [hpv]
    have hk : rowIdx ((firsts (Factory.pa st c)).map (fun p => ((Factory.named st df id).node p).var)) σ <
        (product ((Factory.sp st df c).map (Factory.vals df))).length := by
      rw [← Factory.rows_prod h id hc]
      refine rowIdx_lt σ _ ?_
      intro v hv
      obtain ⟨p, hp, rfl⟩ := List.mem_map.1 hv
      exact hdom p (h.parents c hc p ((mem_firsts _ p).1 hp))
    change ∃ τ : Asg, _ ∧ _ = rowIdx ((firsts (Factory.pa st c)).map (fun p => ((Factory.named st df id).node p).var)) σ ∧
      (∀ τ' : Asg, _ → _ = rowIdx ((firsts (Factory.pa st c)).map (fun p => ((Factory.named st df id).node p).var)) σ → _) ∧
      (Factory.table st df c).getD (rowIdx ((firsts (Factory.pa st c)).map (fun p => ((Factory.named st df id).node p).var)) σ *
        (Factory.vals df c).length + (Factory.vals df c).idxOf (σ (id c))) 0 = _
    generalize rowIdx ((firsts (Factory.pa st c)).map (fun p => ((Factory.named st df id).node p).var)) σ = k at hk
    have hg := List.getElem?_eq_getElem hk
    generalize (product ((Factory.sp st df c).map (Factory.vals df)))[k] = combo at hg
    have hmem := List.mem_of_getElem? hg
    have hg' := hg
    rw [← hvals] at hg'
    have hmem' := List.mem_of_getElem? hg'
    have hrow := getElem?_rowIdx hnd hD hg'
    have hlen := product_length hmem'
    have hmap := vals_eq_map asg0 _ combo hnd hlen
    have hin := over_mem_dom asg0 _ combo hnd hmem'
    refine ⟨over asg0 (vids ((Factory.sp st df c).map (fun p => ((Factory.named st df id).node p).var))) combo, hin, hrow, ?_, ?_⟩
    · intro τ' h1 h2 p hp
      have e1 := product_rowIdx τ' _ h1
      rw [h2, hg'] at e1
      have e2 := Option.some.inj e1
      have e3 : (vids ((Factory.sp st df c).map (fun p => ((Factory.named st df id).node p).var))).map τ' =
          (vids ((Factory.sp st df c).map (fun p => ((Factory.named st df id).node p).var))).map (over asg0 _ combo) := e2.symm.trans hmap
      exact List.map_inj_left.1 e3 p.id (List.mem_map.2 ⟨p, hp, rfl⟩)
    · rw [Factory.table_row hg (hdom c hc)]
      generalize over asg0 (vids ((Factory.sp st df c).map (fun p => ((Factory.named st df id).node p).var))) combo = τ at hmap
      rw [hids, List.map_map] at hmap
      change df.relFreq c (σ (id c)) _ = df.relFreq c (σ (id c)) _
      refine Frame.relFreq_congr df c _ ?_
      intro x
      have hz : (Factory.sp st df c).zip combo = (Factory.sp st df c).map (fun n => (n, τ (id n))) := by
        rw [hmap]
        generalize Factory.sp st df c = l
        induction l with
        | nil => rfl
        | cons a l ih => rw [List.map_cons, List.zip_cons_cons, ih, List.map_cons]; rfl
      rw [hz, List.map_map]
      exact (hper.map (fun n => (n, τ (id n)))).mem_iff

/-- the structure that lists `b` before `a` is one of those, and the two orders do differ -/
example : Factory.Valid c45_unsorted c45_frame ∧ Acyclic c45_frame.Names ∧
    ¬ (Factory.pa c45_unsorted "c".toList).Pairwise (fun a b => strLe a b = true) :=
  ⟨c45_valid (by decide +kernel) (by decide +kernel), c45_apart, by decide +kernel⟩

end PyBBN
