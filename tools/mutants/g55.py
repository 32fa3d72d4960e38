M="Model/Wire"
m(M,"scancel","⟨s.todo.tail, .serializing⟩","⟨s.todo, .serializing⟩","C08","a send cancelled while draining is sent once more",tightened="cancelled_senders_whole_frames")
m(M,"scancel","{ st with senders := st.senders.set t ⟨s.todo.tail, .serializing⟩ }","{ st with wire := st.wire.dropLast, senders := st.senders.set t ⟨s.todo.tail, .serializing⟩ }","C08","a cancelled send takes back bytes already written",tightened="cancelled_senders_whole_frames")
