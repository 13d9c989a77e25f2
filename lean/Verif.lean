import Verif.Analyzer.AddArgs
import Verif.Analyzer.AddArgsProps
import Verif.Analyzer.AgreeProps
import Verif.Analyzer.ArgCheck
import Verif.Analyzer.ArgCheckProps
import Verif.Analyzer.ArgFix
import Verif.Analyzer.ArgFixProps
import Verif.Analyzer.AttrActions
import Verif.Analyzer.AttrActionsProps
import Verif.Analyzer.Cast
import Verif.Analyzer.CastProps
import Verif.Analyzer.Cfg
import Verif.Analyzer.CfgProps
import Verif.Analyzer.Complement
import Verif.Analyzer.ComplementProps
import Verif.Analyzer.Complete
import Verif.Analyzer.CompleteArg
import Verif.Analyzer.CompleteArgProps
import Verif.Analyzer.CompleteEntity
import Verif.Analyzer.CompleteEntityProps
import Verif.Analyzer.CompleteProps
import Verif.Analyzer.CompleteText
import Verif.Analyzer.CompleteTextProps
import Verif.Analyzer.Decl
import Verif.Analyzer.DeclProps
import Verif.Analyzer.Dedup
import Verif.Analyzer.DedupProps
import Verif.Analyzer.DupProps
import Verif.Analyzer.Edit
import Verif.Analyzer.EditLayoutProps
import Verif.Analyzer.EditProps
import Verif.Analyzer.Entity
import Verif.Analyzer.EntityActions
import Verif.Analyzer.EntityActionsProps
import Verif.Analyzer.EntityFix
import Verif.Analyzer.EntityFixLemmas
import Verif.Analyzer.EntityFixProps
import Verif.Analyzer.EntityLemmas
import Verif.Analyzer.EntityOrderProps
import Verif.Analyzer.EntityProps
import Verif.Analyzer.Environment
import Verif.Analyzer.EnvironmentProps
import Verif.Analyzer.Event
import Verif.Analyzer.EventProps
import Verif.Analyzer.ExtensionArg
import Verif.Analyzer.ExtensionArgProps
import Verif.Analyzer.ExtensionTypes
import Verif.Analyzer.ExtensionTypesProps
import Verif.Analyzer.External
import Verif.Analyzer.ExternalProps
import Verif.Analyzer.Extract
import Verif.Analyzer.ExtractAt
import Verif.Analyzer.ExtractAtProps
import Verif.Analyzer.ExtractProps
import Verif.Analyzer.Flatten
import Verif.Analyzer.FlattenProps
import Verif.Analyzer.Generic
import Verif.Analyzer.GenericLemmas
import Verif.Analyzer.GenericProps
import Verif.Analyzer.Header
import Verif.Analyzer.HeaderFixProps
import Verif.Analyzer.HeaderProps
import Verif.Analyzer.HeaderRangeProps
import Verif.Analyzer.Hints
import Verif.Analyzer.HintsProps
import Verif.Analyzer.Hover
import Verif.Analyzer.HoverProps
import Verif.Analyzer.IndentLemmas
import Verif.Analyzer.IndentProps
import Verif.Analyzer.Insert
import Verif.Analyzer.InsertProps
import Verif.Analyzer.InsertText
import Verif.Analyzer.InsertTextProps
import Verif.Analyzer.Members
import Verif.Analyzer.MembersProps
import Verif.Analyzer.Missing
import Verif.Analyzer.MissingLemmas
import Verif.Analyzer.MissingProps
import Verif.Analyzer.Move
import Verif.Analyzer.MoveLemmas
import Verif.Analyzer.MoveProps
import Verif.Analyzer.Offer
import Verif.Analyzer.OfferProps
import Verif.Analyzer.Overlap
import Verif.Analyzer.OverlapProps
import Verif.Analyzer.ParseProps
import Verif.Analyzer.PlacementProps
import Verif.Analyzer.Project
import Verif.Analyzer.ProjectProps
import Verif.Analyzer.Remove
import Verif.Analyzer.RemoveLemmas
import Verif.Analyzer.RemoveProps
import Verif.Analyzer.RemoveRead
import Verif.Analyzer.RemoveReadProps
import Verif.Analyzer.RepeatFixProps
import Verif.Analyzer.Reserved
import Verif.Analyzer.ReservedProps
import Verif.Analyzer.Root
import Verif.Analyzer.RootProps
import Verif.Analyzer.Scale
import Verif.Analyzer.ScaleProps
import Verif.Analyzer.ScaleText
import Verif.Analyzer.ScaleTextProps
import Verif.Analyzer.Scope
import Verif.Analyzer.ScopeProps
import Verif.Analyzer.Signature
import Verif.Analyzer.SignatureDocProps
import Verif.Analyzer.SignatureExactProps
import Verif.Analyzer.SignatureProps
import Verif.Analyzer.Snippet
import Verif.Analyzer.SnippetLemmas
import Verif.Analyzer.SnippetProps
import Verif.Analyzer.Suggest
import Verif.Analyzer.SuggestIdProps
import Verif.Analyzer.SuggestProps
import Verif.Analyzer.Tables
import Verif.Analyzer.TablesProps
import Verif.Analyzer.Templates
import Verif.Analyzer.TemplatesProps
import Verif.Analyzer.Text
import Verif.Analyzer.TraitImpl
import Verif.Analyzer.TraitImplLemmas
import Verif.Analyzer.TraitImplProps
import Verif.Analyzer.Walk
import Verif.Analyzer.WalkProps
import Verif.Basic
import Verif.Ir.Attr
import Verif.Ir.AttrProps
import Verif.Ir.Cover
import Verif.Ir.CoverProps
import Verif.Ir.Entities
import Verif.Ir.EntitiesProps
import Verif.Ir.ItemAt
import Verif.Ir.ItemAtProps
import Verif.Ir.Kinds
import Verif.Ir.Meta
import Verif.Ir.MetaLemmas
import Verif.Ir.MetaProps
import Verif.Ir.NamespaceProps
import Verif.Ir.Resolve
import Verif.Ir.ResolveProps
import Verif.Ir.ResolveSoundProps
import Verif.Ir.Selector
import Verif.Ir.SelectorProps
import Verif.Ir.StringProps
import Verif.Ir.Successors
import Verif.Ir.SuccessorsProps
import Verif.Ir.Syntax
import Verif.Ir.Token
import Verif.Ir.TokenProps
import Verif.Ir.Tree
import Verif.Ir.TreeProps
import Verif.Ir.UseTree
import Verif.Ir.UseTreeProps
import Verif.Ir.Value
import Verif.Ir.ValueProps
import Verif.Lsp.Ask
import Verif.Lsp.AskProps
import Verif.Lsp.Bulb
import Verif.Lsp.BulbProps
import Verif.Lsp.Capabilities
import Verif.Lsp.CapabilitiesProps
import Verif.Lsp.ClientProps
import Verif.Lsp.Command
import Verif.Lsp.Crash
import Verif.Lsp.CrashProps
import Verif.Lsp.Fall
import Verif.Lsp.FallProps
import Verif.Lsp.FitProps
import Verif.Lsp.Manifest
import Verif.Lsp.ManifestProps
import Verif.Lsp.Memory
import Verif.Lsp.Package
import Verif.Lsp.PackageProps
import Verif.Lsp.Position
import Verif.Lsp.PositionLemmas
import Verif.Lsp.PositionProps
import Verif.Lsp.PositionSpec
import Verif.Lsp.Project
import Verif.Lsp.ProjectProps
import Verif.Lsp.Screen
import Verif.Lsp.ScreenProps
import Verif.Lsp.Server
import Verif.Lsp.ServerLemmas
import Verif.Lsp.ServerProps
import Verif.Lsp.ServerSpec
import Verif.Lsp.Session
import Verif.Lsp.SessionProps
import Verif.Lsp.SignatureHelp
import Verif.Lsp.Translate
import Verif.Lsp.TranslateProps
import Verif.Lsp.Workspace
import Verif.Lsp.WorkspaceProps
import Verif.Migrate.AgainProps
import Verif.Migrate.Derive
import Verif.Migrate.DeriveProps
import Verif.Migrate.E2e
import Verif.Migrate.E2eProps
import Verif.Migrate.HostFn
import Verif.Migrate.HostFnProps
import Verif.Migrate.Imports
import Verif.Migrate.ImportsProps
import Verif.Migrate.TestFn
import Verif.Migrate.TestFnProps
import Verif.Migrate.Whole
import Verif.Migrate.WholeProps
import Verif.Util.Chars
import Verif.Util.Sort
import Verif.Audit
