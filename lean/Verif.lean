import Verif.Ark.Poly
import Verif.Ark.Domain
import Verif.Ark.Fields
import Verif.Ark.Bytes
import Verif.Kzg.Model
import Verif.Kzg.Lemmas
import Verif.Kzg.Props
import Verif.Kzg.AlgSoundness
import Verif.Fri.Model
import Verif.Fri.Merkle
import Verif.Fri.MerkleProps
import Verif.Fri.TranscriptProps
import Verif.Fri.Fold
import Verif.Fri.Props
import Verif.Fri.Soundness
import Verif.Fri.OracleSoundness
import Verif.Fri.LineGap
import Verif.Fri.Proximity
import Verif.Fri.Robust
import Verif.Nova.Model
import Verif.Nova.R1cs
import Verif.Nova.Nifs
import Verif.Nova.Circuit
import Verif.Nova.TranscriptProps
import Verif.Nova.Soundness
import Verif.Plonk.Model
import Verif.Plonk.Circuit
import Verif.Plonk.Acc
import Verif.Plonk.ProverLemmas
import Verif.Plonk.Transcript
import Verif.Plonk.Completeness
import Verif.Plonk.Soundness
import Verif.Plonk.Honest
import Verif.Plonk.HonestRun
import Verif.Plonk.Compiled
import Verif.Plonk.AlgSoundness
import Verif.Plonk.PublicInput
import Verif.Plonk.Parser
import Verif.Plonk.Normalise
import Verif.Plonk.Wiring
import Verif.Plonk.ParserSem
import Verif.Plonk.ParserRun
import Verif.Plonk.Equation
import Verif.Plonk.Forgery
import Verif.Plonk.Forces
import Verif.Plonk.ForgeryRun
import Verif.Plonk.EndToEnd
import Verif.Plonk.Cpi
import Verif.Plonk.CpiMatch
import Verif.Plonk.CpiTexts
import Verif.Plonk.Hiding
import Verif.Plonk.ZeroKnowledge
import Verif.Plonk.Degenerate
import Verif.Fri.Degenerate
import Verif.Nova.Degenerate
import Verif.Ark.Machine
import Verif.Fri.Machine
import Verif.Plonk.Machine
import Verif.Seeds
import Verif.Kzg.Unique
import Verif.Nova.Unique
import Verif.Fri.Unique
import Verif.Plonk.Unique
import Verif.Kzg.Program
import Verif.Fri.Program
import Verif.Plonk.Program
import Verif.Nova.Program
import Verif.Plonk.AlphaZero
import Verif.Plonk.Exactly
import Verif.Plonk.Quotient
import Verif.Nova.History
import Verif.Plonk.Oblivious
import Verif.Fri.RootBinding
import Verif.Plonk.Reading
import Verif.Fri.Tamper
import Verif.Plonk.TwoCircuits
import Verif.Kzg.RepoTests
import Verif.Fri.RepoTests
import Verif.Nova.RepoTests
import Verif.Plonk.RepoTests
import Verif.Kzg.Setup
import Verif.Nova.Setup
import Verif.Plonk.Setup
import Verif.Plonk.Renaming
import Verif.Plonk.Names
import Verif.Fri.Api
import Verif.Plonk.CpiDummies
import Verif.Oracle
import Verif.Plonk.FiatShamir
import Verif.Nova.FiatShamir
import Verif.Fri.FiatShamir
import Verif.Plonk.SameCircuit
import Verif.Plonk.SameForm
import Verif.Plonk.Twins
import Verif.Kzg.SetupSize
import Verif.Nova.SetupSize
import Verif.Plonk.SetupSize
import Verif.Kzg.Reveals
import Verif.Nova.Reveals
import Verif.Fri.Reveals
import Verif.Plonk.GateCount
import Verif.Kzg.Batch
import Verif.Nova.Decider
import Verif.Checks
import Verif.Fri.Errors
import Verif.Plonk.Errors
import Verif.Nova.Errors
import Verif.Kzg.Machine
import Verif.Plonk.PadMachine
import Verif.Fri.Cost
import Verif.VerifierKey
import Verif.Fri.Security
import Verif.HashCost
import Verif.Fri.Queries
import Verif.Nova.OneWitness
