import Verif.Additive
import Verif.Api
import Verif.ApiAbort
import Verif.ApiContent
import Verif.ApiDoc
import Verif.ApiHeard
import Verif.ApiHeardThm
import Verif.ApiPath
import Verif.ApiQueue
import Verif.ApiRan
import Verif.ApiThm
import Verif.AttInv
import Verif.AttNorm
import Verif.Atts
import Verif.AttsLemmas
import Verif.Audit
import Verif.Basic
import Verif.Canon
import Verif.CanonDoc
import Verif.CanonThm
import Verif.CdataRuns
import Verif.CharCut
import Verif.Chars
import Verif.Chunks
import Verif.Classes
import Verif.Clone
import Verif.CloneThm
import Verif.Coding
import Verif.Content
import Verif.ContentData
import Verif.ContentItems
import Verif.ContentRuns
import Verif.ContentScaf
import Verif.ContentThm
import Verif.ContentToks
import Verif.ContentZip
import Verif.Context
import Verif.ConvChars
import Verif.ConvLegal
import Verif.Convert
import Verif.Copy
import Verif.CopyJoin
import Verif.CopyRun
import Verif.DataRuns
import Verif.Decl
import Verif.DeclAtt
import Verif.DeclElem
import Verif.DeclInv
import Verif.DeclLemmas
import Verif.DeclRun
import Verif.DeclSpec
import Verif.DeclStop
import Verif.DeclThm
import Verif.DocStart
import Verif.DocThm
import Verif.DoctypeInv
import Verif.DoctypeRun
import Verif.DoctypeSpec
import Verif.Document
import Verif.Echo
import Verif.EchoConv
import Verif.EchoRun
import Verif.ElemDecl
import Verif.ElemInv
import Verif.ElemReach
import Verif.ElemSim
import Verif.Encodings
import Verif.EntNorm
import Verif.Entity
import Verif.EntityContent
import Verif.EntityDecl
import Verif.EntityParser
import Verif.EntityRun
import Verif.EntityStart
import Verif.EventText
import Verif.GetAtts
import Verif.Grammar
import Verif.Handlers
import Verif.LegalProlog
import Verif.LegalRounds
import Verif.LegalRun
import Verif.Lines
import Verif.LinesRun
import Verif.Locality
import Verif.Located
import Verif.LocatedPlaces
import Verif.LocatedToks
import Verif.NameTables
import Verif.Names
import Verif.NoPanic
import Verif.NoPanicDoc
import Verif.NoPanicProlog
import Verif.NoPanicRole
import Verif.NoPanicVal
import Verif.Parser
import Verif.Prolog
import Verif.PrologActs
import Verif.PrologChild
import Verif.PrologChunks
import Verif.PrologFrozen
import Verif.PrologFwd
import Verif.PrologInd
import Verif.PrologInv
import Verif.PrologKeep
import Verif.PrologKeeps
import Verif.PrologLex
import Verif.PrologReach
import Verif.PrologRoles
import Verif.PrologStart
import Verif.PrologToks
import Verif.PrologUnread
import Verif.Props.C01
import Verif.Props.C01Doc
import Verif.Props.C02
import Verif.Props.C03
import Verif.Props.C04
import Verif.Props.C04Parser
import Verif.Props.C05
import Verif.Props.C06
import Verif.Props.C06Parser
import Verif.Props.C07
import Verif.Props.C07Parser
import Verif.Props.C08
import Verif.Props.C09
import Verif.Props.C10
import Verif.Props.C11
import Verif.Props.C12
import Verif.Props.C13
import Verif.Props.C14
import Verif.Props.C15
import Verif.Props.C16
import Verif.Props.C17
import Verif.Props.C18
import Verif.Props.C19
import Verif.Props.C20
import Verif.Props.C21
import Verif.Props.C22
import Verif.Props.C23
import Verif.Props.C24
import Verif.Props.C25
import Verif.Props.C26
import Verif.Props.C27
import Verif.Props.C28
import Verif.Props.C29
import Verif.Props.C30
import Verif.Props.C31
import Verif.Props.C32
import Verif.Props.C33
import Verif.Props.C34
import Verif.Props.C35
import Verif.Props.C36
import Verif.Props.C37
import Verif.Props.C38
import Verif.Props.C39
import Verif.Props.C40
import Verif.Props.C41
import Verif.Props.C42
import Verif.Props.C42Doc
import Verif.Props.C43
import Verif.Props.C44
import Verif.Props.C45
import Verif.Props.C46
import Verif.Props.C47
import Verif.Props.C48
import Verif.Props.C49
import Verif.Props.C50
import Verif.Props.C51
import Verif.Props.C52
import Verif.Props.C53
import Verif.Props.C54
import Verif.Props.C55
import Verif.Props.C56
import Verif.Props.C57
import Verif.Props.C58
import Verif.Props.C59
import Verif.Props.C60
import Verif.Props.C61
import Verif.Props.C62
import Verif.Props.C62Prolog
import Verif.Props.C63
import Verif.Props.C64
import Verif.Props.C65
import Verif.Props.C66
import Verif.Props.C67
import Verif.Props.C68
import Verif.Props.C69
import Verif.Props.C70
import Verif.Props.C71
import Verif.Props.C72
import Verif.Props.C73
import Verif.Props.C74
import Verif.Props.C75
import Verif.Props.C76
import Verif.Props.C77
import Verif.Props.C78
import Verif.Props.C79
import Verif.Props.C80
import Verif.Props.C81
import Verif.Props.C82
import Verif.Props.C83
import Verif.Props.C84
import Verif.RawNames
import Verif.RawNamesThm
import Verif.Refs
import Verif.Reports
import Verif.Roles
import Verif.Runs
import Verif.Scan
import Verif.ScanAux
import Verif.ScanBounds
import Verif.ScanStable
import Verif.SemInd
import Verif.Spec.ContentModel
import Verif.Spec.Lists
import Verif.Spec.NameChars
import Verif.Spec.Numbers
import Verif.Spec.Unicode
import Verif.Splits
import Verif.StartInv
import Verif.StringPool
import Verif.SubsetChild
import Verif.SubsetDoctype
import Verif.SubsetInv
import Verif.SubsetProlog
import Verif.SubsetSect
import Verif.SubsetSpec
import Verif.SubsetThm
import Verif.Subst
import Verif.Suspend
import Verif.SuspendThm
import Verif.Swap
import Verif.Tables
import Verif.Tags
import Verif.TextSpec
import Verif.Toks
import Verif.Transcode
import Verif.TranscodeContent
import Verif.TranscodeEnc
import Verif.TranscodeProlog
import Verif.Tree
import Verif.Units
import Verif.UnknownCuts
import Verif.UnknownEnc
import Verif.UriBuf
import Verif.UriBufThm
import Verif.Utf8Chars
import Verif.Utf8Lemmas
import Verif.Whole
import Verif.XmlDecl
import Verif.XmlDeclRun
import Verif.Xmlwf
import Verif.XmlwfThm
